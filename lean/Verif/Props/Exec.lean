import Verif.Model.Exec
import Verif.Model.Settings
import Verif.Props.Creds

/-!
# C66: how a command is run in a sandbox
-/

namespace SB

open scoped List

/-- The environment `env'` is `env` except that the variable `k` has the value `v`. -/
def Spec.EnvWith (env : List (Str × VarText)) (set : List (Str × Str)) (env' : List (Str × VarText)) : Prop :=
  (∀ k v, (k, v) ∈ set → getVar k env' = some (.text v)) ∧ (∀ k, k ∉ set.map Prod.fst → getVar k env' = getVar k env)

theorem getVar_setVar (k v : Str) : ∀ (env : List (Str × VarText)) (k' : Str), getVar k' (setVar k v env) = if k' = k then some (.text v) else getVar k' env
  | [], k' => by
    unfold setVar getVar
    by_cases h : k' = k
    · subst h; simp
    · simp [h, Ne.symm h]
  | e :: r, k' => by
    have ih := getVar_setVar k v r k'
    unfold setVar
    by_cases he : e.1 = k
    · rw [if_pos he]
      unfold getVar
      by_cases h : k' = k
      · subst h; simp
      · have : e.1 ≠ k' := fun h' => h (h'.symm.trans he)
        simp [h, Ne.symm h, this]
    · rw [if_neg he]
      by_cases h1 : e.1 = k'
      · have : k' ≠ k := fun h' => he (h1.trans h')
        simp [getVar, h1, this]
      · unfold getVar at ih ⊢
        rw [List.find?_cons_of_neg (by simpa using h1), List.find?_cons_of_neg (by simpa using h1)]
        exact ih

theorem envStrings_ok : ∀ {env : List (Str × VarText)} {l : List Str}, envStrings env = .ok l → env.map (fun e => (e.1, e.2)) = env ∧
    List.Forall₂ (fun e s => ∃ v, e.2 = .text v ∧ s = e.1 ++ '=' :: v) env l
  | [], l, h => by
    cases h
    exact ⟨rfl, .nil⟩
  | (k, .notUtf8) :: r, l, h => by cases h
  | (k, .text v) :: r, l, h => by
    unfold envStrings at h
    split at h
    · cases h
    · split at h
      · cases h
      · next l' hl =>
        cases h
        exact ⟨by simp, .cons ⟨v, rfl, rfl⟩ (envStrings_ok hl).2⟩

theorem envStrings_iff {env : List (Str × VarText)} : (∃ l, envStrings env = .ok l) ↔ ∀ e ∈ env, ∃ v, e.2 = .text v ∧ '\x00' ∉ e.1 ++ '=' :: v := by
  induction env with
  | nil => simp [envStrings]
  | cons e r ih =>
    obtain ⟨k, v⟩ := e
    cases v with
    | notUtf8 => simp [envStrings]
    | text v =>
      rw [List.forall_mem_cons, ← ih]
      rw [show envStrings ((k, VarText.text v) :: r) = if (k ++ '=' :: v).contains '\x00' then .error .nul else match envStrings r with
        | .error e => .error e
        | .ok l => .ok ((k ++ '=' :: v) :: l) from rfl]
      by_cases hc : (k ++ '=' :: v).contains '\x00' = true
      · rw [if_pos hc]
        constructor
        · rintro ⟨l, h⟩; cases h
        · rintro ⟨⟨v', hv, hn⟩, _⟩
          cases hv
          exact absurd (List.contains_iff_mem.1 hc) hn
      · rw [if_neg hc]
        have hn : '\x00' ∉ k ++ '=' :: v := fun h => hc (List.contains_iff_mem.2 h)
        constructor
        · rintro ⟨l, h⟩
          refine ⟨⟨v, rfl, hn⟩, ?_⟩
          split at h
          · cases h
          · next l' hl => exact ⟨l', hl⟩
        · rintro ⟨_, l, hl⟩
          rw [hl]
          exact ⟨_, rfl⟩

theorem execChild_ok {p : Process} {cmd : List Str} {l : Launch} (h : execChild p cmd = .ok l) :
    l.proc = p ∧ l.argv = cmd ∧ cmd.head? = some l.file ∧ envStrings p.env = .ok l.envp := by
  unfold execChild at h
  cases cmd with
  | nil => cases h
  | cons c args =>
    simp only at h
    split at h
    · cases h
    · split at h
      · cases h
      · next e he =>
        cases h
        exact ⟨rfl, rfl, rfl, he⟩

/-- **C66**: a command that is started runs with exactly the words given, in the directory where the tool was called, with the ids of the user only, in every namespace
of the sandbox, and with the caller's environment except for SANDBOX and SANDBOX_STORAGE_DIR. -/
theorem C66_command (x : ExecWorld) (p : Process) (t : ExecTarget) (cmd : List Str) (l : Launch) (hroot : p.creds.euid = 0) (h : execIn x p t cmd = .ok l) :
    l.argv = cmd ∧ cmd.head? = some l.file ∧ l.proc.cwd = p.cwd ∧ (∃ ns, x.initNs = some ns ∧ ∀ n, l.proc.ns n = ns n) ∧ Spec.OnlyIds l.proc.creds t.uid t.gid ∧
    Spec.EnvWith p.env [(str "SANDBOX", t.name), (str "SANDBOX_STORAGE_DIR", display t.dataDir)] l.proc.env ∧
    List.Forall₂ (fun e s => ∃ v, e.2 = .text v ∧ s = e.1 ++ '=' :: v) l.proc.env l.envp := by
  unfold execIn at h
  simp only at h
  cases hns : x.initNs with
  | none => rw [hns] at h; cases h
  | some ns =>
    rw [hns] at h
    simp only [reduceCtorEq, if_false] at h
    split at h
    · cases h
    split at h
    · cases h
    split at h
    · cases h
    obtain ⟨hd1, hd2⟩ := C50_dropped p.creds t.uid t.gid hroot
    cases hdp : dropPrivileges p.creds t.uid t.gid with
    | mk creds ok =>
      rw [hdp] at h hd1 hd2
      simp only at hd1 hd2
      subst hd1
      simp only at h
      split at h
      · cases h
      obtain ⟨h1, h2, h3, h4⟩ := execChild_ok h
      refine ⟨h2, h3, by rw [h1], ⟨ns, rfl, fun n => ?_⟩, by rw [h1]; exact hd2, ?_, ?_⟩
      · rw [h1]
        by_cases hn : n = .pid
        · subst hn; simp
        · simp [hn]
      · rw [h1]
        constructor
        · intro k v hkv
          simp only [List.mem_cons, Prod.mk.injEq, List.not_mem_nil, or_false] at hkv
          rcases hkv with ⟨rfl, rfl⟩ | ⟨rfl, rfl⟩
          · rw [getVar_setVar, if_neg (by decide), getVar_setVar, if_pos rfl]
          · rw [getVar_setVar, if_pos rfl]
        · intro k hk
          simp only [List.map_cons, List.map_nil, List.mem_cons, List.not_mem_nil, or_false, not_or] at hk
          rw [getVar_setVar, if_neg hk.2, getVar_setVar, if_neg hk.1]
      · rw [h1]
        exact (envStrings_ok h4).2

theorem mem_setVar {k v : Str} {env : List (Str × VarText)} {e : Str × VarText} (h : e ∈ setVar k v env) : e = (k, .text v) ∨ e ∈ env := by
  induction env with
  | nil => simpa [setVar] using h
  | cons a r ih =>
    unfold setVar at h
    split at h
    · rcases List.mem_cons.1 h with h | h
      · exact .inl h
      · exact .inr (by simp [h])
    · rcases List.mem_cons.1 h with h | h
      · exact .inr (by simp [h])
      · rcases ih h with h | h
        · exact .inl h
        · exact .inr (by simp [h])

/-- **C66**: the command is started whenever the sandbox's first process exists, its namespaces can be joined, the current directory exists inside the sandbox, a process
can be created, and the environment is valid text. -/
theorem C66_started_partial (x : ExecWorld) (p : Process) (t : ExecTarget) (cmd : List Str) (hroot : p.creds.euid = 0) (hc : cmd ≠ []) (hz : ∀ s ∈ cmd, '\x00' ∉ s)
    (ns : Namespace → Nat) (hns : x.initNs = some ns) (hs : x.setns = true) (hr : x.canEnter (ns .mnt) [] = true) (hd : x.canEnter (ns .mnt) p.cwd = true)
    (hf : x.fork = true) (he : ∀ e ∈ p.env, ∃ v, e.2 = .text v ∧ '\x00' ∉ e.1 ++ '=' :: v) (hn : '\x00' ∉ t.name) (hdd : '\x00' ∉ display t.dataDir) :
    ∃ l, execIn x p t cmd = .ok l := by
  obtain ⟨hd1, _⟩ := C50_dropped p.creds t.uid t.gid hroot
  unfold execIn
  simp only [hns, hs, Bool.not_true, if_false, reduceCtorEq, hr, hd, Bool.false_eq_true]
  cases hdp : dropPrivileges p.creds t.uid t.gid with
  | mk creds ok =>
    rw [hdp] at hd1
    simp only at hd1
    subst hd1
    simp only [hf, Bool.not_true, Bool.false_eq_true, if_false]
    have henv : ∃ l, envStrings (setVar (str "SANDBOX_STORAGE_DIR") (display t.dataDir) (setVar (str "SANDBOX") t.name p.env)) = .ok l := by
      rw [envStrings_iff]
      intro e hm
      rcases mem_setVar hm with rfl | hm
      · refine ⟨_, rfl, ?_⟩
        simp only [List.mem_append, List.mem_cons, not_or]
        exact ⟨by decide, by decide, hdd⟩
      · rcases mem_setVar hm with rfl | hm
        · refine ⟨_, rfl, ?_⟩
          simp only [List.mem_append, List.mem_cons, not_or]
          exact ⟨by decide, by decide, hn⟩
        · exact he e hm
    obtain ⟨l, hl⟩ := henv
    cases cmd with
    | nil => exact absurd rfl hc
    | cons c args =>
      unfold execChild
      have : ¬ (c.contains '\x00' = true ∨ (args.any (·.contains '\x00')) = true) := by
        rintro (h | h)
        · exact hz c (by simp) (List.contains_iff_mem.1 h)
        · obtain ⟨a, ha, h⟩ := List.any_eq_true.1 h
          exact hz a (by simp [ha]) (List.contains_iff_mem.1 h)
      simp only [hl]
      rw [if_neg this]
      exact ⟨_, rfl⟩

/-- **C66**: which namespaces the command shares with the host: only the network, and only if asked for.  `ns` are those of the sandbox's first process, `fresh` the new
ones the kernel made for it. -/
theorem C66_namespaces (x : ExecWorld) (p : Process) (t : ExecTarget) (cmd : List Str) (l : Launch) (hroot : p.creds.euid = 0) (h : execIn x p t cmd = .ok l) (c : Config)
    (host fresh ns : Namespace → Nat) (hfresh : ∀ n, fresh n ≠ host n) (hns : ∀ n, ns n = if n ∈ newNamespaces c.net then fresh n else host n) (hx : x.initNs = some ns) (n : Namespace) :
    l.proc.ns n = host n ↔ n = .net ∧ c.net = .host := by
  obtain ⟨_, _, _, ⟨ns', h1, h2⟩, _⟩ := C66_command x p t cmd l hroot h
  rw [hx] at h1
  cases h1
  rw [h2, hns]
  split
  · next hm =>
    constructor
    · intro hc; exact absurd hc (hfresh n)
    · rintro ⟨rfl, hc⟩; rw [hc] at hm; exact absurd hm (by decide)
  · next hm =>
    simp only [true_iff]
    revert hm
    cases c.net <;> cases n <;> decide

/-- **C66**: the directory named by SANDBOX_STORAGE_DIR is there inside the sandbox: everything below it is the data directory of the sandbox on the host, writable. -/
theorem C66_storage (se : StartEnv) (c : Config) (ms : List MountHash) (hdot : ['.'] ∉ sandboxDir c.storageDir c.name) (r : Path) :
    seen (sandboxMounts se c ms) (sandboxDir c.storageDir c.name ++ [str "data"] ++ r) =
      some ⟨sandboxDir c.storageDir c.name ++ [str "data"], .bind (sandboxDir c.storageDir c.name ++ [str "data"]) false⟩ := by
  have hf : (sandboxDir c.storageDir c.name ++ [str "data"]).filter (· ≠ ['.']) = sandboxDir c.storageDir c.name ++ [str "data"] := by
    rw [List.filter_eq_self]
    intro n hn
    rcases List.mem_append.1 hn with h | h
    · have : n ≠ ['.'] := by rintro rfl; exact hdot h
      simpa using this
    · simp only [List.mem_singleton] at h
      subst h
      decide
  have hsys : sandboxDir c.storageDir c.name ++ [str "data"] ≠ [str "run", str "systemd"] := by
    intro h
    have := congrArg List.getLast? h
    simp only [List.getLast?_append, List.getLast?_singleton] at this
    revert this
    simp [str]
  unfold seen sandboxMounts startMounts
  rw [List.map_append, List.map_append, ← List.append_assoc, List.reverse_append]
  simp only [List.map_cons, List.map_nil, List.reverse_singleton, List.cons_append, List.nil_append]
  rw [List.find?_cons_of_pos]
  · simp only [startBind, dataBind, finalTarget, RPath.ofPath, bindMounted]
    rw [hf]
    simp [hsys]
  · simp only [startBind, dataBind, finalTarget, RPath.ofPath]
    rw [hf, List.isPrefixOf_iff_prefix]
    exact ⟨r, rfl⟩

/-- **C66**: without a command the user's shell is run, `sh` if none is set. -/
theorem C66_shell (env : List (Str × VarText)) : (∀ s, getVar (str "SHELL") env = some (.text s) → commandOf env none = [s]) ∧
    (getVar (str "SHELL") env = none → commandOf env none = [str "sh"]) ∧ ∀ c, commandOf env (some c) = c := by
  refine ⟨fun s h => ?_, fun h => ?_, fun c => rfl⟩
  · unfold commandOf; rw [h]
  · unfold commandOf; rw [h]

/-- **C66**: no word of a command is changed; only a first word that looks like an option is refused. -/
theorem C66_words (ws : List Str) : (validateWords 0 ws = none ↔ ∃ r, ws.head? = some ('-' :: r) ∧ '-' :: r ≠ str "--") ∧
    ∀ l, validateWords 0 ws = some l → l = ws := by
  have hall : ∀ (n : Nat) (ws : List Str), 0 < n → validateWords n ws = some ws := by
    intro n ws
    induction ws generalizing n with
    | nil => intro _; rfl
    | cons s r ih =>
      intro hn
      unfold validateWords
      rw [if_neg (by omega), ih (n + 1) (by omega)]
      rfl
  cases ws with
  | nil => simp [validateWords]
  | cons s r =>
    unfold validateWords
    rw [hall 1 r (by omega)]
    by_cases hc : s.head? = some '-' ∧ s ≠ str "--"
    · rw [if_pos ⟨rfl, hc⟩]
      refine ⟨⟨fun _ => ?_, fun _ => rfl⟩, fun l h => by cases h⟩
      cases s with
      | nil => cases hc.1
      | cons c s =>
        simp only [List.head?_cons, Option.some.injEq] at hc
        obtain ⟨rfl, h2⟩ := hc
        exact ⟨s, rfl, h2⟩
    · rw [if_neg (fun h => hc h.2)]
      refine ⟨⟨fun h => (by cases h), ?_⟩, fun l h => by cases h; rfl⟩
      rintro ⟨r', h1, h2⟩
      simp only [List.head?_cons, Option.some.injEq] at h1
      subst h1
      exact absurd ⟨rfl, h2⟩ hc

/-- A call of the tool by root (through a setuid bit) in `/home`, with the variables of the caller. -/
def exProc (env : List (Str × VarText)) : Process := ⟨fun _ => 1, 1, [str "home"], ⟨1000, 0, 0, 1000, 1000, 1000, [1000]⟩, env⟩

def exExecWorld : ExecWorld := ⟨some (fun n => if n = .net then 1 else 2), true, fun _ _ => true, true⟩

/-- Non-vacuity: `ls -l` in a sandbox named `n`. -/
example : (execIn exExecWorld (exProc [(str "PATH", .text (str "/bin")), (str "SANDBOX", .text (str "old"))]) ⟨str "n", [str "s", str "n", str "data"], 1000, 1000⟩ [str "ls", str "-l"]).toOption.map
      (fun l => (l.argv, l.envp, l.proc.cwd, l.proc.ns .pid)) =
    some ([str "ls", str "-l"], [str "PATH=/bin", str "SANDBOX=n", str "SANDBOX_STORAGE_DIR=/s/n/data"], [str "home"], 2) := by decide +kernel

example : ['.'] ∉ sandboxDir [str "s"] (str "n") ∧ sandboxDir [str "s"] (str "n") = [str "s", str "n"] := by decide +kernel

/-- **C66 refuted**: with a variable in the environment that is not valid UTF-8 no command can be run: the child panics before `execvpe`. -/
theorem C66_refuted_env (x : ExecWorld) (p : Process) (t : ExecTarget) (cmd : List Str) (k : Str) (hk : k ≠ str "SANDBOX" ∧ k ≠ str "SANDBOX_STORAGE_DIR")
    (h : (k, VarText.notUtf8) ∈ p.env) (l : Launch) : execIn x p t cmd ≠ .ok l := by
  have keep : ∀ (k' v : Str) (env : List (Str × VarText)), k ≠ k' → (k, VarText.notUtf8) ∈ env → (k, VarText.notUtf8) ∈ setVar k' v env := by
    intro k' v env hne
    induction env with
    | nil => simp
    | cons e r ih =>
      intro hm
      unfold setVar
      rcases List.mem_cons.1 hm with hm | hm
      · rw [if_neg (by rw [← hm]; exact hne)]
        simp [hm]
      · split
        · simp [hm]
        · exact List.mem_cons_of_mem _ (ih hm)
  intro he
  unfold execIn at he
  simp only [reduceCtorEq, if_false] at he
  split at he
  · cases he
  split at he
  · cases he
  split at he
  · cases he
  split at he
  · cases he
  split at he
  · cases he
  split at he
  · cases he
  obtain ⟨_, _, _, h4⟩ := execChild_ok he
  obtain ⟨v, hv, _⟩ := envStrings_iff.1 ⟨_, h4⟩ _ (keep _ _ _ hk.2 (keep _ _ _ hk.1 h))
  cases hv

end SB
