import Verif.Props.Config
import Verif.Lib.SandboxLemmas

/-!
# C41, C42, C43: names and places of sandboxes
-/

namespace SB

/-! ### C41 -/

/-- **C41** (partial): for every name the configuration accepts other than the three below, the sandbox's directory is a direct child of the storage directory
(the last component is a proper file name).  Missing: the names `""`, `.` and `..` (`C41_refuted_*`). -/
theorem C41_direct_child_partial (w : World) (a : Args) (c : Config) (h : resolveConfig w a = .ok c) (h0 : c.name ≠ []) (h1 : c.name ≠ ['.']) (h2 : c.name ≠ ['.', '.']) :
    sandboxDir c.storageDir c.name = c.storageDir ++ [c.name] ∧ NormalName c.name := by
  obtain ⟨_, _, _, _, _, _, _, hf, _⟩ := resolve_stages h
  obtain ⟨_, _, _, _, _, _, _, hs, _⟩ := finish_ok hf
  have hn : NormalName c.name := ⟨h0, hs, h1, h2⟩
  exact ⟨sandboxDir_normal hn, hn⟩

/-- **C41**, deletion (partial): deleting such a sandbox removes nothing but its directory with its contents, its lock file and its pid file, and changes nothing,
whatever fails.  Missing: a sandbox directory that is a symbolic link (`C41_refuted_symlink`). -/
theorem C41_delete_partial (fault : Fault) (s : Sys) (storage : Path) (name : Name) (pid : Option Nat) (hw : s.fs.WF) (hs : s.fs.isDirAt storage = true)
    (hn : NormalName name) (hl : ∀ n, s.fs.get (storage ++ [name]) = some n → n.isLnk = false) (q : Path) :
    ((deleteSandbox fault s storage name pid).1.fs.get q = s.fs.get q ∨ (deleteSandbox fault s storage name pid).1.fs.get q = none) ∧
    (¬ storage ++ [name] <+: q → q ≠ storage ++ [name ++ str ".lock"] → q ≠ storage ++ [name ++ str ".pid"] →
      (deleteSandbox fault s storage name pid).1.fs.get q = s.fs.get q) := by
  obtain ⟨ht, hsub, _⟩ := deleteSandbox_touch fault s storage name pid hw hs hn hl
  refine ⟨hsub q, fun h1 h2 h3 => ?_⟩
  rcases ht.keep q with h | ⟨n, rfl, ⟨h | h | h, _⟩ | ⟨h, _⟩⟩
  · exact h
  · exact absurd h h1
  · exact absurd h h2
  · exact absurd h h3
  · exact absurd h h2

/-- A storage directory with sandboxes `a` (stopped) and `b` (running, process 42), and a link `x`; process 7 is an ordinary one. -/
def exSb : Path := [str "sb"]
def exSysFs : FS := [([], { kind := .dir }), ([str "etc"], { kind := .dir }), ([str "etc", str "passwd"], { kind := .reg (str "root") }), (exSb, { kind := .dir }),
  (exSb ++ [str "a"], { kind := .dir }), (exSb ++ [str "a", str "upper"], { kind := .dir }), (exSb ++ [str "a", str "upper", str "f"], { kind := .reg (str "1") }),
  (exSb ++ [str "a.lock"], { kind := .reg [] }), (exSb ++ [str "a.pid"], { kind := .reg (str "99") }),
  (exSb ++ [str "b"], { kind := .dir }), (exSb ++ [str "b", str "upper"], { kind := .dir }), (exSb ++ [str "b.lock"], { kind := .reg [] }),
  (exSb ++ [str "b.pid"], { kind := .reg (str "42") }), (exSb ++ [str "x"], { kind := .lnk (str "/etc") }), (exSb ++ [str "x.lock"], { kind := .reg [] })]

def exSys : Sys := ⟨exSysFs, [⟨1, str "init", 'S', 10, 10⟩, ⟨7, str "bash", 'S', 10, 10⟩, ⟨42, str "sandbox", 'S', 20, 20⟩, ⟨43, str "sleep", 'S', 20, 20⟩], fun _ => false⟩

def noFault : Fault := fun _ => none

theorem exSys_wf : exSys.fs.WF ∧ exSys.fs.isDirAt exSb = true := by decide +kernel

example : NormalName (str "a") ∧ (deleteSandbox noFault exSys exSb (str "a") none).2 = none ∧
    (deleteSandbox noFault exSys exSb (str "a") none).1.fs.get (exSb ++ [str "a", str "upper", str "f"]) = none ∧
    (deleteSandbox noFault exSys exSb (str "a") none).1.fs.length = 10 := by decide +kernel

/-- **C41 is refuted**: the empty name is accepted and its directory is the storage directory; deleting it deletes every sandbox. -/
theorem C41_refuted_empty :
    (∃ c, resolveConfig exCfgWorld { name := some [] } = .ok c ∧ c.name = [] ∧ sandboxDir c.storageDir c.name = c.storageDir) ∧
    (deleteAction noFault globRef exSb [] [] true [] exSys).1.fs.get (exSb ++ [str "a", str "upper", str "f"]) = none ∧
    (deleteAction noFault globRef exSb [] [] true [] exSys).1.fs.get exSb = none := by
  refine ⟨⟨{ exCfg with name := [], logLevel := .debug, sources := [(.storageDir, str "default"), (.noDefaultBinds, str "default"), (.name, str "cli"),
    (.ignored, str "environment"), (.bind, str "/home/u/proj/.sandbox.conf"),
    (.name, str "/home/u/proj/.sandbox.conf"), (.mask, str "/home/u/proj/.sandbox.toml"), (.name, str "/home/u/proj/.sandbox.toml"),
    (.net, str "/home/u/.config/sandbox/config.toml"), (.logLevel, str "/home/u/.config/sandbox/config.toml"), (.bind, str "/etc/sandbox.toml"),
    (.ignored, str "/etc/sandbox.toml"), (.net, str "/etc/sandbox.toml"), (.configFiles, str "default search")] }, ?_, rfl, ?_⟩, ?_, ?_⟩
  all_goals decide +kernel

/-- `.` also names the storage directory, `..` its parent. -/
theorem C41_refuted_dot : (∀ c, resolveConfig exCfgWorld { name := some ['.'] } = .ok c → sandboxDir c.storageDir c.name = c.storageDir) ∧
    (resolveConfig exCfgWorld { name := some ['.'] }).isOk = true ∧ (resolveConfig exCfgWorld { name := some ['.', '.'] }).isOk = true ∧
    (deleteAction noFault globRef exSb ['.'] [] true [] exSys).1.fs.get exSb = none ∧
    (deleteAction noFault globRef exSb ['.', '.'] [] true [] exSys).1.fs.get [str "etc", str "passwd"] = none := by
  refine ⟨fun c h => ?_, ?_, ?_, ?_, ?_⟩
  · obtain ⟨_, _, _, acc2, _, _, hc, hf, _⟩ := resolve_stages h
    have hn : c.name = ['.'] := by
      have := C34_name _ _ c h rfl rfl
      exact this.1
    rw [hn]
    simp [sandboxDir, parsePath, splitSlash, components, RPath.join, RPath.ofPath]
  all_goals decide +kernel

/-- A symbolic link in the place of the sandbox's directory: the contents of its target are deleted (by root, if the tool is set-user-id). -/
theorem C41_refuted_symlink : (deleteAction noFault globRef exSb (str "x") [] true [] exSys).1.fs.get [str "etc", str "passwd"] = none := by decide +kernel

/-! ### C42 -/

/-- Files of a sandbox. -/
def Spec.files (storage : Path) (n : Name) : List Path := [sandboxDir storage n, lockFile storage n, pidFile storage n]

/-- **C42**, exactly: two sandboxes share a file if and only if they have the same name or one name is the other's with `.lock` or `.pid` appended. -/
theorem C42_share_iff (storage : Path) (n m : Name) (hn : NormalName n) (hm : NormalName m) :
    (∃ f, f ∈ Spec.files storage n ∧ f ∈ Spec.files storage m) ↔
      n = m ∨ n = m ++ str ".lock" ∨ n = m ++ str ".pid" ∨ m = n ++ str ".lock" ∨ m = n ++ str ".pid" := by
  have hx : ∀ a b : Name, a ++ str ".lock" ≠ b ++ str ".pid" := by
    intro a b h
    have h1 := congrArg List.getLast? h
    simp [str] at h1
  simp only [Spec.files, sandboxDir_normal hn, sandboxDir_normal hm, lockFile, pidFile, List.mem_cons, List.not_mem_nil, or_false]
  constructor
  · rintro ⟨f, rfl | rfl | rfl, h | h | h⟩ <;> have h' := List.append_cancel_left h <;> simp only [List.cons.injEq, and_true] at h'
    · exact .inl h'
    · exact .inr (.inl h')
    · exact .inr (.inr (.inl h'))
    · exact .inr (.inr (.inr (.inl h'.symm)))
    · exact .inl (List.append_cancel_right h')
    · exact absurd h' (hx _ _)
    · exact .inr (.inr (.inr (.inr h'.symm)))
    · exact absurd h'.symm (hx _ _)
    · exact .inl (List.append_cancel_right h')
  · rintro (rfl | rfl | rfl | rfl | rfl)
    · exact ⟨_, .inl rfl, .inl rfl⟩
    · exact ⟨_, .inl rfl, .inr (.inl rfl)⟩
    · exact ⟨_, .inl rfl, .inr (.inr rfl)⟩
    · exact ⟨_, .inr (.inl rfl), .inl rfl⟩
    · exact ⟨_, .inr (.inr rfl), .inl rfl⟩

/-- **C42** (partial): names that do not end in `.lock` or `.pid` share nothing, not even a path inside. -/
theorem C42_disjoint_partial (storage : Path) (n m : Name) (hne : n ≠ m) (h1 : ¬ str ".lock" <:+ n ∧ ¬ str ".pid" <:+ n)
    (h2 : ¬ str ".lock" <:+ m ∧ ¬ str ".pid" <:+ m) (q : Path) :
    ¬ ((storage ++ [n] <+: q ∨ q = lockFile storage n ∨ q = pidFile storage n) ∧ (storage ++ [m] <+: q ∨ q = lockFile storage m ∨ q = pidFile storage m)) := by
  have hpre : ∀ a b : Name, ∀ q : Path, storage ++ [a] <+: q → storage ++ [b] <+: q → a = b := by
    intro a b q ha hb
    rcases prefix_total ha hb with h | h <;> have := h.eq_of_length (by simp) <;> have := List.append_cancel_left this <;> simp_all
  have hx : ∀ a b : Name, a ++ str ".lock" ≠ b ++ str ".pid" := by
    intro a b h; have h1 := congrArg List.getLast? h; simp [str] at h1
  rintro ⟨ha | ha | ha, hb | hb | hb⟩
  · exact hne (hpre _ _ _ ha hb)
  · subst hb; have := hpre _ _ _ ha (List.prefix_refl _); exact h1.1 ⟨m, this.symm⟩
  · subst hb; have := hpre _ _ _ ha (List.prefix_refl _); exact h1.2 ⟨m, this.symm⟩
  · subst ha; have := hpre _ _ _ hb (List.prefix_refl _); exact h2.1 ⟨n, this.symm⟩
  · subst ha; have := List.append_cancel_left hb; simp at this; exact hne this
  · subst ha; have := List.append_cancel_left hb; simp only [List.cons.injEq, and_true] at this; exact hx _ _ this
  · subst ha; have := hpre _ _ _ hb (List.prefix_refl _); exact h2.2 ⟨n, this.symm⟩
  · subst ha; have := List.append_cancel_left hb; simp only [List.cons.injEq, and_true] at this; exact hx _ _ this.symm
  · subst ha; have := List.append_cancel_left hb; simp at this; exact hne this

example : ¬ str ".lock" <:+ str "a.lockx" ∧ ¬ str ".pid" <:+ str "pid" := by decide

/-- **C42 is refuted**: the data directory of the sandbox `a.lock` is the lock file of the sandbox `a`.  With a sandbox called `b.lock` nothing can be done with
the sandbox `b` (its lock cannot be opened), and `delete` with a matching pattern stops with an error. -/
def exLockFs : FS := [([], { kind := .dir }), (exSb, { kind := .dir }), (exSb ++ [str "b.lock"], { kind := .dir }), (exSb ++ [str "b.lock.lock"], { kind := .reg [] }),
  (exSb ++ [str "c"], { kind := .dir }), (exSb ++ [str "c.lock"], { kind := .reg [] })]

theorem C42_refuted : sandboxDir exSb (str "a.lock") = lockFile exSb (str "a") ∧ NormalName (str "a.lock") ∧
    (deleteAction noFault globRef exSb [] [str "*"] true [] ⟨exLockFs, [], fun _ => false⟩) = (⟨exLockFs, [], fun _ => false⟩, [], [], some .EISDIR) := by
  refine ⟨by decide +kernel, by decide, ?_⟩
  have h : ∀ r : Sys × List Name × List Name × Option Errno, r.1.fs = exLockFs → r.1.procs = [] → r.1.group = (fun _ => false) → r.2 = ([], [], some .EISDIR) →
      r = (⟨exLockFs, [], fun _ => false⟩, [], [], some .EISDIR) := by
    rintro ⟨⟨f, p, g⟩, r⟩ h1 h2 h3 h4
    dsimp only at h1 h2 h3 h4
    subst h1; subst h2; subst h3; subst h4; rfl
  refine h _ (by decide +kernel) (by decide +kernel) ?_ (by decide +kernel)
  rfl

end SB
