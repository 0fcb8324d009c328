import Verif.Props.Names

/-! # C43: `--new` and `--last` -/

namespace SB

theorem newName_free {taken : Name → Bool} : ∀ {clock : List (Name × Name)} {n : Name}, newName taken clock = some n → taken n = false
  | [], _, h => by cases h
  | (b, ms) :: r, n, h => by
    unfold newName at h
    split at h
    · rename_i ht; cases h; simpa using ht
    · split at h
      · rename_i ht; cases h; simpa using ht
      · exact newName_free h

theorem lastName_newest {l : List (Name × Bool × Nat)} {n : Name} (h : lastName l = some n) :
    ∃ t, (n, true, t) ∈ l ∧ ∀ m t', (m, true, t') ∈ l → t' ≤ t := by
  unfold lastName at h
  simp only [Option.map_eq_some_iff] at h
  obtain ⟨⟨n', t⟩, hh, rfl⟩ := h
  have hs := pairwise_stableSort (le := fun a b : Name × Nat => decide (b.2 ≤ a.2)) (fun a b => by simp; omega) (fun a b c h1 h2 => by simp at *; omega)
    ((l.filter (fun e => e.2.1)).map (fun e => (e.1, e.2.2)))
  have hm : ∀ x, x ∈ stableSort (fun a b : Name × Nat => decide (b.2 ≤ a.2)) ((l.filter (fun e => e.2.1)).map (fun e => (e.1, e.2.2))) ↔ (x.1, true, x.2) ∈ l := by
    intro x
    rw [mem_stableSort]
    simp only [List.mem_map, List.mem_filter]
    constructor
    · rintro ⟨⟨a, b, c⟩, ⟨h1, h2⟩, rfl⟩; dsimp only at *; rw [h2] at h1; exact h1
    · intro hx; exact ⟨_, ⟨hx, rfl⟩, rfl⟩
  cases hl : stableSort (fun a b : Name × Nat => decide (b.2 ≤ a.2)) ((l.filter (fun e => e.2.1)).map (fun e => (e.1, e.2.2))) with
  | nil => rw [hl] at hh; cases hh
  | cons x r =>
    rw [hl] at hh hs
    simp only [List.head?_cons, Option.some.injEq] at hh
    subst hh
    refine ⟨t, (hm (n', t)).1 (by rw [hl]; simp), fun m t' hmem => ?_⟩
    have := (hm (m, t')).2 hmem
    rw [hl] at this
    rcases List.mem_cons.1 this with he | he
    · cases he; exact Nat.le_refl _
    · simpa using (List.pairwise_cons.1 hs).1 _ he

/-- **C43**, `--new`: the name chosen is not that of a sandbox with a directory (at the time of the choice), and it is one of the names made from the clock. -/
theorem C43_new (w : World) (a : Args) (c : Config) (h : resolveConfig w a = .ok c) (hn : a.new = true) :
    w.fs.pexists (c.storageDir ++ [c.name]) = false ∧ c.sources.get .name = some (str "cli --new") ∧ (∃ e ∈ w.clock, c.name = e.1 ∨ c.name = e.2) := by
  obtain ⟨p0, s0, acc1, acc2, hl, he, hc, hf, hconf⟩ := resolve_stages h
  obtain ⟨_, ⟨csd, _⟩, ⟨nm, hnm, c1, c2⟩, _⟩ := applyCli_ok hc
  obtain ⟨f1, _, _, _, _, fsd, _, _, _, f2, _⟩ := finish_ok hf
  unfold cliName at hnm
  rw [if_pos hn, ← csd, fsd] at hnm
  dsimp only at hnm
  split at hnm
  · cases hnm
  · rename_i n hnn
    cases hnm
    have hname : c.name = n := by rw [f1, c1]; rfl
    refine ⟨?_, ?_, ?_⟩
    · rw [hname]; exact newName_free hnn
    · rw [f2, c2]; rfl
    · rw [hname]
      clear hname f1 f2 c1 c2 hf hc
      revert hnn
      generalize w.clock = cl
      induction cl with
      | nil => intro h; cases h
      | cons x r ih =>
        obtain ⟨b, ms⟩ := x
        intro hnn
        unfold newName at hnn
        split at hnn
        · cases hnn; exact ⟨_, List.mem_cons_self, .inl rfl⟩
        · split at hnn
          · cases hnn; exact ⟨_, List.mem_cons_self, .inr rfl⟩
          · obtain ⟨e, he, hh⟩ := ih hnn
            exact ⟨e, List.mem_cons_of_mem _ he, hh⟩

/-- **C43**, `--last`: the name chosen is that of a sandbox directory in the storage directory, and none was created later. -/
theorem C43_last (w : World) (a : Args) (c : Config) (h : resolveConfig w a = .ok c) (hl' : a.last = true) (hn : a.new = false) :
    ∃ entries t, w.listing c.storageDir = some entries ∧ (c.name, true, t) ∈ entries ∧ (∀ m t', (m, true, t') ∈ entries → t' ≤ t) ∧
      c.sources.get .name = some (str "cli --last") := by
  obtain ⟨p0, s0, acc1, acc2, hl, he, hc, hf, hconf⟩ := resolve_stages h
  obtain ⟨_, ⟨csd, _⟩, ⟨nm, hnm, c1, c2⟩, _⟩ := applyCli_ok hc
  obtain ⟨f1, _, _, _, _, fsd, _, _, _, f2, _⟩ := finish_ok hf
  unfold cliName at hnm
  rw [if_neg (by rw [hn]; decide), if_pos hl', ← csd, fsd] at hnm
  dsimp only at hnm
  split at hnm
  · cases hnm
  · rename_i l hll
    split at hnm
    · cases hnm
    · rename_i n hnn
      cases hnm
      obtain ⟨t, ht, hmax⟩ := lastName_newest hnn
      have hname : c.name = n := by rw [f1, c1]; rfl
      refine ⟨l, t, hll, by rw [hname]; exact ht, hmax, by rw [f2, c2]; rfl⟩

/-- **C43**: if there is a sandbox `--last` does not fail for want of one. -/
theorem C43_last_found (l : List (Name × Bool × Nat)) (n : Name) (t : Nat) (h : (n, true, t) ∈ l) : (lastName l).isSome = true := by
  unfold lastName
  simp only [Option.isSome_map]
  cases hl : stableSort (fun a b : Name × Nat => decide (b.2 ≤ a.2)) ((l.filter (fun e => e.2.1)).map (fun e => (e.1, e.2.2))) with
  | nil =>
    have : (n, t) ∈ stableSort (fun a b : Name × Nat => decide (b.2 ≤ a.2)) ((l.filter (fun e => e.2.1)).map (fun e => (e.1, e.2.2))) := by
      rw [mem_stableSort]; exact List.mem_map.2 ⟨_, List.mem_filter.2 ⟨h, rfl⟩, rfl⟩
    rw [hl] at this; cases this
  | cons x r => rfl

/-- **C43**: both are rejected when a name is set in the environment or in a config file that is read. -/
theorem C43_rejected (w : World) (a : Args) (h : a.new = true ∨ a.last = true) (hname : w.vars.name.isSome = true ∨
    (∃ p s files, loadPartial w a = .ok (p, s, files) ∧ (Spec.fileValue w files (·.name)).isSome = true)) : ∀ c, resolveConfig w a ≠ .ok c := by
  intro c hc
  obtain ⟨p0, s0, acc1, acc2, hl, he, hcli, hf, hconf⟩ := resolve_stages hc
  apply hconf
  have h1 : (a.new || a.last) = true := by rcases h with h | h <;> simp [h]
  rw [h1]
  rcases hname with hv | ⟨p, s, files, hl', hv⟩
  · simp [hv]
  · rw [hl'] at hl; cases hl
    obtain ⟨t1, _⟩ := loadPartial_tracked tracked_name rfl (by decide) hl'
    have : p0.name.isSome = true := by rw [t1]; simpa using hv
    simp [this]

/-- Non-vacuity: a world without config files and with two sandboxes. -/
def exNewWorld : World := { exCfgWorld with
  fs := exCfgFs ++ [([str "home", str "u", str "data", str "n1"], { kind := .dir, dev := 1 })]
  vars := {}
  clock := [(str "n1", str "n1.5")]
  listing := fun _ => some [(str "o", true, 5), (str "junk", false, 9), (str "n1", true, 7), (str "p", true, 6)] }

example : ((resolveConfig exNewWorld { new := true, noConfig := true, storageDir := some (str "/home/u/data") }).toOption.map (·.name)) = some (str "n1.5") := by
  decide +kernel
example : ((resolveConfig exNewWorld { last := true, noConfig := true, storageDir := some (str "/home/u/data") }).toOption.map (·.name)) = some (str "n1") := by decide +kernel
example : resolveConfig exCfgWorld { new := true } = .error .newLastConflict := by decide +kernel
example : (Spec.fileValue exCfgWorld exCfg.configFiles (·.name)).isSome = true := by decide +kernel

/-- **C43 is refuted** for sandboxes that exist without a directory (a lock file is left over when a command only looked at a sandbox; `list` shows it): `--new` may
choose their name. -/
def exLeftWorld : World := { exNewWorld with fs := exCfgFs ++ [([str "home", str "u", str "data", str "n1.lock"], { kind := .reg [], dev := 1 })] }

theorem C43_refuted_lock_only :
    ((resolveConfig exLeftWorld { new := true, noConfig := true, storageDir := some (str "/home/u/data") }).toOption.map (fun c => (c.storageDir, c.name))) = some ([str "home", str "u", str "data"], str "n1") ∧
    sandboxExists exLeftWorld.fs [str "home", str "u", str "data"] (str "n1") = true ∧
    (getSandboxes ⟨exLeftWorld.fs, [], fun _ => false⟩ globRef [str "home", str "u", str "data"] []).toOption = some ([], [str "n1"]) := by
  refine ⟨?_, ?_, ?_⟩ <;> decide +kernel

end SB
