import Verif.Model.Creds

/-! # C49-C51: identities -/

namespace SB

/-! ### C49 -/

/-- **C49**, setuid: the identity is the real user and group, whatever the environment says. -/
theorem C49_setuid (c : Creds) (e : IdEnv) (pexists : Str → Bool) (i : Identity) (hs : c.ruid ≠ 0 ∧ c.euid = 0) (h : resolveIdentity c e pexists = .ok i) :
    i.uid = c.ruid ∧ i.gid = c.rgid := by
  have : isSetuid c = true := by simp [isSetuid, hs.1, hs.2]
  unfold resolveIdentity at h
  simp only [this, if_true] at h
  split at h
  · cases h
  · split at h
    · cases h
    · cases h; exact ⟨rfl, rfl⟩

/-- **C49**, setuid: none of the SUDO variables matters for anything. -/
theorem C49_setuid_ignores (c : Creds) (e e' : IdEnv) (pexists : Str → Bool) (hs : c.ruid ≠ 0 ∧ c.euid = 0) (hh : e.home = e'.home) :
    resolveIdentity c e pexists = resolveIdentity c e' pexists := by
  have : isSetuid c = true := by simp [isSetuid, hs.1, hs.2]
  unfold resolveIdentity
  simp only [this, if_true, hh]

/-- A decimal number below 2^32 (an optional plus sign is allowed). -/
def Spec.U32Text (t : Str) (n : Nat) : Prop :=
  ∃ d : Str, (t = d ∨ t = '+' :: d) ∧ d ≠ [] ∧ (∀ c ∈ d, c.isDigit = true) ∧ n = d.foldl (fun a c => a * 10 + (c.toNat - 48)) 0 ∧ n < 4294967296

theorem u32Digit_eq (c : Char) : u32Digit c = if c.isDigit then some (c.toNat - 48) else none := by
  unfold u32Digit Char.isDigit
  have h1 : (c.val ≥ 48 ∧ c.val ≤ 57) ↔ (48 ≤ c.toNat ∧ c.toNat ≤ 57) := by
    simp only [ge_iff_le, UInt32.le_iff_toNat_le, Char.toNat]; rfl
  by_cases h : 48 ≤ c.toNat ∧ c.toNat ≤ 57
  · simp [h, h1.2 h]
  · rw [if_neg h, if_neg]
    simp only [Bool.and_eq_true, decide_eq_true_eq]
    exact fun hc => h (h1.1 hc)

theorem foldl_ge (d : Str) : ∀ a : Nat, a ≤ d.foldl (fun a c => a * 10 + (c.toNat - 48)) a := by
  induction d with
  | nil => intro a; exact le_refl _
  | cons c r ih =>
    intro a
    have h : a ≤ a * 10 + (c.toNat - 48) := by omega
    exact Nat.le_trans h (ih _)

theorem u32Digits_iff : ∀ (d : Str) (a n : Nat), a < 4294967296 →
    (u32Digits a d = some n ↔ (∀ c ∈ d, c.isDigit = true) ∧ n = d.foldl (fun a c => a * 10 + (c.toNat - 48)) a ∧ n < 4294967296)
  | [], a, n, ha => by simp only [u32Digits, List.not_mem_nil, false_implies, implies_true, List.foldl_nil, true_and, Option.some.injEq]; omega
  | c :: r, a, n, ha => by
    unfold u32Digits
    rw [u32Digit_eq]
    cases hc : c.isDigit with
    | false => simp [hc]
    | true =>
      simp only [if_true, List.mem_cons, forall_eq_or_imp, hc, true_and, List.foldl_cons]
      split
      · rename_i hlt; exact u32Digits_iff r _ n hlt
      · rename_i hlt
        simp only [reduceCtorEq, false_iff, not_and]
        intro _ hn
        have := foldl_ge r (a * 10 + (c.toNat - 48))
        omega

theorem parseU32_iff (t : Str) (n : Nat) : parseU32 t = some n ↔ Spec.U32Text t n := by
  unfold Spec.U32Text
  have hplus : ('+' : Char).isDigit = false := by decide
  have gen : ∀ r : Str, (∀ x, r ≠ '+' :: x) → r ≠ [] → (u32Digits 0 r = some n ↔ ∃ d : Str, (r = d ∨ r = '+' :: d) ∧ d ≠ [] ∧ (∀ c ∈ d, c.isDigit = true) ∧
      n = d.foldl (fun a c => a * 10 + (c.toNat - 48)) 0 ∧ n < 4294967296) := by
    intro r h1 h2
    rw [u32Digits_iff r 0 n (by decide)]
    constructor
    · intro h; exact ⟨r, .inl rfl, h2, h⟩
    · rintro ⟨d, rfl | hd, _, h⟩
      · exact h
      · exact absurd hd (h1 d)
  match t with
  | [] => simp [parseU32]
  | ['+'] =>
    simp only [parseU32, reduceCtorEq, false_iff, not_exists, not_and]
    intro d hd hne h
    rcases hd with rfl | hd
    · have := h '+' (by simp); rw [hplus] at this; cases this
    · simp only [List.cons.injEq, true_and] at hd; exact absurd hd.symm hne
  | '+' :: c :: r =>
    have : parseU32 ('+' :: c :: r) = u32Digits 0 (c :: r) := rfl
    rw [this, u32Digits_iff _ 0 n (by decide)]
    constructor
    · intro h; exact ⟨c :: r, .inr rfl, by simp, h⟩
    · rintro ⟨d, rfl | hd, _, h⟩
      · have := h.1 '+' (by simp); rw [hplus] at this; cases this
      · simp only [List.cons.injEq, true_and] at hd; rw [hd]; exact h
  | c :: r =>
    by_cases hc : c = '+'
    · subst hc
      cases r with
      | nil =>
        simp only [parseU32, reduceCtorEq, false_iff, not_exists, not_and]
        intro d hd hne h
        rcases hd with rfl | hd
        · have := h '+' (by simp); rw [hplus] at this; cases this
        · simp only [List.cons.injEq, true_and] at hd; exact absurd hd.symm hne
      | cons c r =>
        have : parseU32 ('+' :: c :: r) = u32Digits 0 (c :: r) := rfl
        rw [this, u32Digits_iff _ 0 n (by decide)]
        constructor
        · intro h; exact ⟨c :: r, .inr rfl, by simp, h⟩
        · rintro ⟨d, rfl | hd, _, h⟩
          · have := h.1 '+' (by simp); rw [hplus] at this; cases this
          · simp only [List.cons.injEq, true_and] at hd; rw [hd]; exact h
    · have : parseU32 (c :: r) = u32Digits 0 (c :: r) := by
        unfold parseU32
        split
        · rename_i h; cases h
        · rename_i h; cases h; exact absurd rfl hc
        · rename_i h; cases h; exact absurd rfl hc
        · rfl
      rw [this]
      exact gen _ (fun x h => by cases h; exact hc rfl) (by simp)

/-- What a SUDO variable stands for: the real id if it is not set, otherwise the number written there. -/
def Spec.SudoId (v : Option Str) (real n : Nat) : Prop := (v = none ∧ n = real) ∨ ∃ t, v = some t ∧ Spec.U32Text t n

theorem sudoId_iff (v : Option Str) (real n : Nat) : sudoId v real = some n ↔ Spec.SudoId v real n := by
  unfold sudoId Spec.SudoId
  cases v with
  | none => simp [eq_comm]
  | some t => simp [parseU32_iff]

/-- **C49**, run by root (sudo or a root shell): the identity is the one in SUDO_UID and SUDO_GID; where one of them is not set, the real id. -/
theorem C49_sudo (c : Creds) (e : IdEnv) (pexists : Str → Bool) (i : Identity) (hs : ¬ (c.ruid ≠ 0 ∧ c.euid = 0)) (h : resolveIdentity c e pexists = .ok i) :
    Spec.SudoId e.sudoUid c.ruid i.uid ∧ Spec.SudoId e.sudoGid c.rgid i.gid := by
  have : isSetuid c = false := by
    unfold isSetuid
    by_contra hc
    simp only [ne_eq, Bool.not_eq_false, Bool.and_eq_true, decide_eq_true_eq, beq_iff_eq] at hc
    exact hs ⟨fun h0 => hc.1 (by rw [hc.2, h0]), hc.2⟩
  unfold resolveIdentity at h
  simp only [this, Bool.false_eq_true, if_false] at h
  split at h
  · cases h
  · rename_i u g hm heq
    split at h
    · cases h
    · split at h
      · cases h
      · cases h
        split at heq
        · cases heq
        · rename_i u' hu
          split at heq
          · cases heq
          · rename_i g' hg
            cases heq
            exact ⟨(sudoId_iff _ _ _).1 hu, (sudoId_iff _ _ _).1 hg⟩

/-- **C49**: a malformed SUDO_UID or SUDO_GID is an error. -/
theorem C49_malformed (c : Creds) (e : IdEnv) (pexists : Str → Bool) (hs : ¬ (c.ruid ≠ 0 ∧ c.euid = 0)) (t : Str) (hv : e.sudoUid = some t ∨ e.sudoGid = some t)
    (hbad : ∀ n, ¬ Spec.U32Text t n) (i : Identity) : resolveIdentity c e pexists ≠ .ok i := by
  intro h
  obtain ⟨h1, h2⟩ := C49_sudo c e pexists i hs h
  rcases hv with hv | hv
  · rcases h1 with ⟨h1, _⟩ | ⟨t', h1, h3⟩
    · rw [hv] at h1; cases h1
    · rw [hv] at h1; cases h1; exact hbad _ h3
  · rcases h2 with ⟨h1, _⟩ | ⟨t', h1, h3⟩
    · rw [hv] at h1; cases h1
    · rw [hv] at h1; cases h1; exact hbad _ h3

/-- The home directory that is meant: `HOME` for a setuid process; for others `SUDO_HOME` has precedence; `/tmp` if nothing is set. -/
inductive Spec.HomeIs (c : Creds) (e : IdEnv) : Str → Prop
  | setuid {h : Str} : c.ruid ≠ 0 → c.euid = 0 → e.home = some h → Spec.HomeIs c e h
  | setuidNone : c.ruid ≠ 0 → c.euid = 0 → e.home = none → Spec.HomeIs c e (str "/tmp")
  | sudo {h : Str} : ¬ (c.ruid ≠ 0 ∧ c.euid = 0) → e.sudoHome = some h → Spec.HomeIs c e h
  | plain {h : Str} : ¬ (c.ruid ≠ 0 ∧ c.euid = 0) → e.sudoHome = none → e.home = some h → Spec.HomeIs c e h
  | plainNone : ¬ (c.ruid ≠ 0 ∧ c.euid = 0) → e.sudoHome = none → e.home = none → Spec.HomeIs c e (str "/tmp")

/-- **C49**, the home directory: it is the one that is meant, absolute and existing; nothing else is ever taken instead. -/
theorem C49_home (c : Creds) (e : IdEnv) (pexists : Str → Bool) (i : Identity) (h : resolveIdentity c e pexists = .ok i) :
    Spec.HomeIs c e i.home ∧ (∃ r, i.home = '/' :: r) ∧ pexists i.home = true := by
  have hset : isSetuid c = true ↔ c.ruid ≠ 0 ∧ c.euid = 0 := by
    unfold isSetuid
    simp only [ne_eq, Bool.and_eq_true, decide_eq_true_eq, beq_iff_eq]
    constructor
    · rintro ⟨h1, h2⟩; exact ⟨fun h0 => h1 (by rw [h2, h0]), h2⟩
    · rintro ⟨h1, h2⟩; exact ⟨fun h0 => h1 (by rw [h0, h2]), h2⟩
  have key : ∀ {u g : Nat} {hm : Str}, (if hm.head? ≠ some '/' then Except.error IdErr.homeRelative else if (!pexists hm) = true then .error .homeMissing else .ok ⟨u, g, hm⟩) = Except.ok i →
      Spec.HomeIs c e hm → Spec.HomeIs c e i.home ∧ (∃ r, i.home = '/' :: r) ∧ pexists i.home = true := by
    intro u g hm h hh
    split at h
    · cases h
    · rename_i h1
      split at h
      · cases h
      · rename_i h2
        cases h
        refine ⟨hh, ?_, by simpa using h2⟩
        cases hm with
        | nil => simp at h1
        | cons x r => simp at h1; exact ⟨r, by rw [h1]⟩
  unfold resolveIdentity at h
  by_cases hs : isSetuid c = true
  · simp only [hs, if_true] at h
    refine key h ?_
    obtain ⟨h1, h2⟩ := hset.1 hs
    cases hh : e.home with
    | none => exact .setuidNone h1 h2 hh
    | some x => exact .setuid h1 h2 hh
  · have hn : ¬ (c.ruid ≠ 0 ∧ c.euid = 0) := fun hx => hs (hset.2 hx)
    simp only [hs, Bool.false_eq_true, if_false] at h
    cases hu : sudoId e.sudoUid c.ruid with
    | none => simp only [hu] at h; cases h
    | some u =>
      simp only [hu] at h
      cases hg : sudoId e.sudoGid c.rgid with
      | none => simp only [hg] at h; cases h
      | some g =>
        simp only [hg] at h
        refine key h ?_
        cases hsh : e.sudoHome with
        | some x => exact .sudo hn hsh
        | none =>
          cases hh : e.home with
          | none => exact .plainNone hn hsh hh
          | some x => exact .plain hn hsh hh

/-- **C49**: nothing but a malformed number or a home directory that is relative or missing is an error. -/
theorem C49_accepts (c : Creds) (e : IdEnv) (pexists : Str → Bool) (hs : c.ruid ≠ 0 ∧ c.euid = 0) (r : Str) (hh : e.home = some ('/' :: r)) (hx : pexists ('/' :: r) = true) :
    resolveIdentity c e pexists = .ok ⟨c.ruid, c.rgid, '/' :: r⟩ := by
  have : isSetuid c = true := by simp [isSetuid, hs.1, hs.2]
  unfold resolveIdentity
  simp [this, hh, hx]

/-- A user's process of a setuid root binary; a root process. -/
def exSetuid : Creds := ⟨1000, 0, 0, 100, 0, 0, [100, 27]⟩
def exRoot : Creds := ⟨0, 0, 0, 0, 0, 0, [0, 4]⟩

/-- Non-vacuity of C49. -/
example : resolveIdentity exSetuid { sudoUid := some (str "0"), sudoGid := some (str "0"), home := some (str "/home/u") } (fun _ => true) = .ok ⟨1000, 100, str "/home/u"⟩ ∧
    resolveIdentity exRoot { sudoUid := some (str "1000"), sudoGid := some (str "+100"), home := some (str "/root") } (fun _ => true) = .ok ⟨1000, 100, str "/root"⟩ ∧
    resolveIdentity exRoot { sudoUid := some (str "-1") } (fun _ => true) = .error .sudoUid ∧
    resolveIdentity exRoot { sudoUid := some (str "4294967296") } (fun _ => true) = .error .sudoUid ∧
    resolveIdentity exRoot { sudoUid := some [] } (fun _ => true) = .error .sudoUid := by decide

/-! ### C50 -/

/-- The ids a process has are these and no others. -/
def Spec.OnlyIds (c : Creds) (uid gid : Nat) : Prop := c.ruid = uid ∧ c.euid = uid ∧ c.suid = uid ∧ c.rgid = gid ∧ c.egid = gid ∧ c.sgid = gid

/-- Credentials a process can reach by any sequence of calls. -/
inductive Spec.CanBecome (c : Creds) : Creds → Prop
  | refl : Spec.CanBecome c c
  | step {c1 c2 : Creds} (k : IdCall) : Spec.CanBecome c c1 → c1.call k = some c2 → Spec.CanBecome c c2

/-- **C50**: as root, dropping privileges succeeds and leaves only the user's ids. -/
theorem C50_dropped (c : Creds) (uid gid : Nat) (h : c.euid = 0) : (dropPrivileges c uid gid).2 = true ∧ Spec.OnlyIds (dropPrivileges c uid gid).1 uid gid := by
  have h1 : c.call (.setgid gid) = some { c with rgid := gid, egid := gid, sgid := gid } := by simp [Creds.call, Creds.privileged, h]
  have h2 : ({ c with rgid := gid, egid := gid, sgid := gid } : Creds).call (.setuid uid) = some { c with rgid := gid, egid := gid, sgid := gid, ruid := uid, euid := uid, suid := uid } := by
    simp [Creds.call, Creds.privileged, h]
  unfold dropPrivileges
  rw [h1]; dsimp only; rw [h2]
  exact ⟨rfl, rfl, rfl, rfl, rfl, rfl, rfl⟩

/-- **C50**, whoever the caller is: if dropping privileges reports success, the process acts with the user's ids. -/
theorem C50_success (c : Creds) (uid gid : Nat) (h : (dropPrivileges c uid gid).2 = true) : (dropPrivileges c uid gid).1.euid = uid ∧ (dropPrivileges c uid gid).1.egid = gid := by
  unfold dropPrivileges at h ⊢
  cases h1 : c.call (.setgid gid) with
  | none => simp only [h1] at h; cases h
  | some c1 =>
    simp only [h1] at h ⊢
    have e1 : c1.egid = gid := by
      simp only [Creds.call] at h1
      split at h1
      · cases h1; rfl
      · split at h1
        · cases h1; rfl
        · cases h1
    cases h2 : c1.call (.setuid uid) with
    | none => simp only [h2] at h; cases h
    | some c2 =>
      simp only [Creds.call] at h2
      split at h2
      · cases h2; exact ⟨rfl, e1⟩
      · split at h2
        · cases h2; exact ⟨rfl, e1⟩
        · cases h2

theorem onlyIds_call {c c' : Creds} {uid gid : Nat} (hu : uid ≠ 0) (h : Spec.OnlyIds c uid gid) (k : IdCall) (hc : c.call k = some c') :
    Spec.OnlyIds c' uid gid ∧ c'.groups = c.groups := by
  obtain ⟨h1, h2, h3, h4, h5, h6⟩ := h
  have hp : c.privileged = false := by simp [Creds.privileged, h2, hu]
  have hok : ∀ u, c.uidOk u = true → u = uid := by
    intro u hu'
    simp only [Creds.uidOk, hp, Bool.false_or, Bool.or_eq_true, beq_iff_eq, h1, h2, h3] at hu'
    rcases hu' with (h | h) | h <;> exact h
  have gok : ∀ u, c.gidOk u = true → u = gid := by
    intro u hu'
    simp only [Creds.gidOk, hp, Bool.false_or, Bool.or_eq_true, beq_iff_eq, h4, h5, h6] at hu'
    rcases hu' with (h | h) | h <;> exact h
  cases k with
  | setuid u =>
    simp only [Creds.call, hp, Bool.false_eq_true, if_false] at hc
    split at hc
    · rename_i he
      cases hc
      simp only [Bool.or_eq_true, beq_iff_eq, h1, h3, or_self] at he
      exact ⟨⟨h1, he, h3, h4, h5, h6⟩, rfl⟩
    · cases hc
  | seteuid u =>
    simp only [Creds.call] at hc
    split at hc
    · rename_i he; cases hc; exact ⟨⟨h1, hok u he, h3, h4, h5, h6⟩, rfl⟩
    · cases hc
  | setresuid r e s =>
    simp only [Creds.call] at hc
    split at hc
    · rename_i he; cases hc
      simp only [Bool.and_eq_true] at he
      exact ⟨⟨hok r he.1.1, hok e he.1.2, hok s he.2, h4, h5, h6⟩, rfl⟩
    · cases hc
  | setgid g =>
    simp only [Creds.call, hp, Bool.false_eq_true, if_false] at hc
    split at hc
    · rename_i he
      cases hc
      simp only [Bool.or_eq_true, beq_iff_eq, h4, h6, or_self] at he
      exact ⟨⟨h1, h2, h3, h4, he, h6⟩, rfl⟩
    · cases hc
  | setegid g =>
    simp only [Creds.call] at hc
    split at hc
    · rename_i he; cases hc; exact ⟨⟨h1, h2, h3, h4, gok g he, h6⟩, rfl⟩
    · cases hc
  | setresgid r e s =>
    simp only [Creds.call] at hc
    split at hc
    · rename_i he; cases hc
      simp only [Bool.and_eq_true] at he
      exact ⟨⟨h1, h2, h3, gok r he.1.1, gok e he.1.2, gok s he.2⟩, rfl⟩
    · cases hc
  | setgroups l =>
    simp only [Creds.call, hp, Bool.false_eq_true, if_false] at hc
    cases hc

/-- **C50**: after that no sequence of calls changes any id again (for a user other than root).  Missing: the supplementary groups. -/
theorem C50_for_good_partial (c : Creds) (uid gid : Nat) (h : c.euid = 0) (hu : uid ≠ 0) (c' : Creds) (hr : Spec.CanBecome (dropPrivileges c uid gid).1 c') :
    Spec.OnlyIds c' uid gid := by
  have : Spec.OnlyIds c' uid gid ∧ c'.groups = (dropPrivileges c uid gid).1.groups := by
    induction hr with
    | refl => exact ⟨(C50_dropped c uid gid h).2, rfl⟩
    | step k _ hk ih =>
      obtain ⟨h1, h2⟩ := onlyIds_call hu ih.1 k hk
      exact ⟨h1, h2.trans ih.2⟩
  exact this.1

/-- **C50 refuted** for supplementary groups: they are never changed, so a command run through `sudo` keeps all of root's groups, for good. -/
theorem C50_refuted_groups (c : Creds) (uid gid : Nat) (h : c.euid = 0) (hu : uid ≠ 0) (c' : Creds) (hr : Spec.CanBecome (dropPrivileges c uid gid).1 c') :
    c'.groups = c.groups := by
  have hg : (dropPrivileges c uid gid).1.groups = c.groups := by
    have h1 : c.call (.setgid gid) = some { c with rgid := gid, egid := gid, sgid := gid } := by simp [Creds.call, Creds.privileged, h]
    unfold dropPrivileges
    rw [h1]
    simp [Creds.call, Creds.privileged, h]
  have : Spec.OnlyIds c' uid gid ∧ c'.groups = (dropPrivileges c uid gid).1.groups := by
    induction hr with
    | refl => exact ⟨(C50_dropped c uid gid h).2, rfl⟩
    | step k _ hk ih =>
      obtain ⟨h1, h2⟩ := onlyIds_call hu ih.1 k hk
      exact ⟨h1, h2.trans ih.2⟩
  exact this.2.trans hg

/-- Concretely: a root shell in the groups `root` and `adm`. -/
example : dropPrivileges exRoot 1000 100 = (⟨1000, 1000, 1000, 100, 100, 100, [0, 4]⟩, true) := by decide

/-! ### C51 -/

/-- **C51**: as root, checking access leaves all credentials as they were, whatever the target identity and whatever the answer, and the answer is the one for the target
identity. -/
theorem C51_restored (eaccess : Creds → Bool) (c : Creds) (uid gid : Nat) (h : c.euid = 0) (hs : c.ruid = 0 ∨ c.suid = 0) :
    (canAccess eaccess c uid gid).1 = c ∧ (canAccess eaccess c uid gid).2 = (if eaccess { c with egid := gid, euid := uid } then .allowed else .denied) := by
  have h1 : c.call (.setegid gid) = some { c with egid := gid } := by simp [Creds.call, Creds.gidOk, Creds.privileged, h]
  have h2 : ({ c with egid := gid } : Creds).call (.seteuid uid) = some { c with egid := gid, euid := uid } := by
    simp [Creds.call, Creds.uidOk, Creds.privileged, h]
  have h3 : ({ c with egid := gid, euid := uid } : Creds).call (.seteuid c.euid) = some { c with egid := gid } := by
    rcases hs with hs | hs <;> simp [Creds.call, Creds.uidOk, h, hs]
  have h4 : ({ c with egid := gid } : Creds).call (.setegid c.egid) = some c := by
    simp only [Creds.call, Creds.gidOk, Creds.privileged, h, beq_self_eq_true, Bool.true_or, if_true, Option.some.injEq]
    rw [← h]
  unfold canAccess
  rw [h1]; dsimp only
  rw [h2]; dsimp only
  rw [h3]; dsimp only
  rw [h4]
  exact ⟨rfl, rfl⟩

/-- Non-vacuity of C51: a setuid process checks whether its user may write. -/
example : canAccess (fun c => c.euid == 1000 && c.egid == 100) exSetuid 1000 100 = (exSetuid, .allowed) ∧
    canAccess (fun c => c.euid == 0) exSetuid 1000 100 = (exSetuid, .denied) := by decide

/-- **C51 for any process, partial**: unless changing the ids is refused, everything is as it was; an answer is only given after the ids are back. -/
theorem C51_answered (eaccess : Creds → Bool) (c : Creds) (uid gid : Nat) (h : (canAccess eaccess c uid gid).2 ≠ .idError) : (canAccess eaccess c uid gid).1 = c := by
  have he : ∀ (c c' : Creds) (g : Nat), c.call (.setegid g) = some c' → c' = { c with egid := g } := by
    intro c c' g hc; simp only [Creds.call] at hc; split at hc <;> cases hc; rfl
  have hu : ∀ (c c' : Creds) (g : Nat), c.call (.seteuid g) = some c' → c' = { c with euid := g } := by
    intro c c' g hc; simp only [Creds.call] at hc; split at hc <;> cases hc; rfl
  unfold canAccess at h ⊢
  split at h
  · exact absurd rfl h
  · rename_i c1 h1
    split at h
    · exact absurd rfl h
    · rename_i c2 h2
      simp only at h ⊢
      split at h
      · exact absurd rfl h
      · rename_i c3 h3
        split at h
        · exact absurd rfl h
        · rename_i c4 h4
          rw [he _ _ _ h4, hu _ _ _ h3, hu _ _ _ h2, he _ _ _ h1]

/-- **C51 refuted** for a process that is not root: the group is changed, changing the user is refused, and the group stays changed. -/
theorem C51_refuted_unprivileged : ∃ (c : Creds) (uid gid : Nat), c.euid ≠ 0 ∧ ∀ eaccess, (canAccess eaccess c uid gid).1.egid ≠ c.egid :=
  ⟨⟨1000, 1000, 1000, 100, 100, 27, [100]⟩, 0, 27, by decide, fun _ => by
    simp [canAccess, Creds.call, Creds.gidOk, Creds.uidOk, Creds.privileged]⟩

end SB
