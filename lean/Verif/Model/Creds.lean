import Verif.Basic

/-!
# Identities: src/util/resolve_uid_gid_home.rs, src/util/access.rs, src/util/drop_privileges.rs

The system calls follow setuid(2), seteuid(2), setgid(2), setgroups(2), credentials(7) for a process without other capabilities than those of effective uid 0.
-/

namespace SB

/-- Credentials of a process. -/
structure Creds where
  ruid : Nat
  euid : Nat
  suid : Nat
  rgid : Nat
  egid : Nat
  sgid : Nat
  groups : List Nat
deriving DecidableEq, Repr

/-- Effective uid 0 has `CAP_SETUID` and `CAP_SETGID`. -/
def Creds.privileged (c : Creds) : Bool := c.euid == 0

/-- The system calls that change credentials; `none`: EPERM. -/
inductive IdCall where
  | setuid (u : Nat) | seteuid (u : Nat) | setresuid (r e s : Nat) | setgid (g : Nat) | setegid (g : Nat) | setresgid (r e s : Nat) | setgroups (l : List Nat)
deriving DecidableEq, Repr

def Creds.uidOk (c : Creds) (u : Nat) : Bool := c.privileged || u == c.ruid || u == c.suid || u == c.euid
def Creds.gidOk (c : Creds) (g : Nat) : Bool := c.privileged || g == c.rgid || g == c.sgid || g == c.egid

/-- Kernel: setuid(2), seteuid(2) (= setresuid(-1, u, -1)), setresuid(2) and the group versions. -/
def Creds.call (c : Creds) : IdCall → Option Creds
  | .setuid u => if c.privileged then some { c with ruid := u, euid := u, suid := u } else if u == c.ruid || u == c.suid then some { c with euid := u } else none
  | .seteuid u => if c.uidOk u then some { c with euid := u } else none
  | .setresuid r e s => if c.uidOk r && c.uidOk e && c.uidOk s then some { c with ruid := r, euid := e, suid := s } else none
  | .setgid g => if c.privileged then some { c with rgid := g, egid := g, sgid := g } else if g == c.rgid || g == c.sgid then some { c with egid := g } else none
  | .setegid g => if c.gidOk g then some { c with egid := g } else none
  | .setresgid r e s => if c.gidOk r && c.gidOk e && c.gidOk s then some { c with rgid := r, egid := e, sgid := s } else none
  | .setgroups l => if c.privileged then some { c with groups := l } else none

/-! ### Who we are -/

/-- The environment variables that matter. -/
structure IdEnv where
  sudoUid : Option Str := none
  sudoGid : Option Str := none
  sudoHome : Option Str := none
  home : Option Str := none
deriving DecidableEq, Repr

/-- Digits of a number. -/
def u32Digit (c : Char) : Option Nat := if 48 ≤ c.toNat ∧ c.toNat ≤ 57 then some (c.toNat - 48) else none

def u32Digits : Nat → Str → Option Nat
  | acc, [] => some acc
  | acc, c :: r => match u32Digit c with
    | none => none
    | some d => if acc * 10 + d < 4294967296 then u32Digits (acc * 10 + d) r else none

/-- `u32::from_str`: an optional `+`, then at least one digit; the value must fit. -/
def parseU32 (s : Str) : Option Nat :=
  match s with
  | [] => none
  | '+' :: [] => none
  | '+' :: r => u32Digits 0 r
  | r => u32Digits 0 r

structure Identity where
  uid : Nat
  gid : Nat
  home : Str
deriving DecidableEq, Repr

inductive IdErr where | sudoUid | sudoGid | homeRelative | homeMissing
deriving DecidableEq, Repr

/-- src/util/resolve_uid_gid_home.rs:21-22 -/
def isSetuid (c : Creds) : Bool := c.ruid ≠ c.euid && c.euid == 0

/-- src/util/resolve_uid_gid_home.rs:41-61: the value of a SUDO variable, or the real id. -/
def sudoId (v : Option Str) (real : Nat) : Option Nat :=
  match v with
  | none => some real
  | some t => parseU32 t

/-- src/util/resolve_uid_gid_home.rs:14-73 `resolve_uid_gid_home`; `exists`: the home directory exists. -/
def resolveIdentity (c : Creds) (e : IdEnv) (pexists : Str → Bool) : Except IdErr Identity :=
  let who : Except IdErr (Nat × Nat × Str) :=
    if isSetuid c then .ok (c.ruid, c.rgid, e.home.getD (str "/tmp"))
    else match sudoId e.sudoUid c.ruid with
      | none => .error .sudoUid
      | some u => match sudoId e.sudoGid c.rgid with
        | none => .error .sudoGid
        | some g => .ok (u, g, (e.sudoHome.or e.home).getD (str "/tmp"))
  match who with
  | .error x => .error x
  | .ok (u, g, h) =>
    if h.head? ≠ some '/' then .error .homeRelative
    else if !pexists h then .error .homeMissing
    else .ok ⟨u, g, h⟩

/-! ### Dropping privileges and checking access -/

/-- src/util/drop_privileges.rs:4-8; an error leaves the credentials as far as they were changed. -/
def dropPrivileges (c : Creds) (uid gid : Nat) : Creds × Bool :=
  match c.call (.setgid gid) with
  | none => (c, false)
  | some c1 => match c1.call (.setuid uid) with
    | none => (c1, false)
    | some c2 => (c2, true)

/-- What src/util/access.rs:6-39 `can_access` returns. -/
inductive Access where | allowed | denied | idError
deriving DecidableEq, Repr

/-- src/util/access.rs:6-39 `can_access`; `eaccess` is the kernel's answer for the credentials at the time of the call. -/
def canAccess (eaccess : Creds → Bool) (c : Creds) (uid gid : Nat) : Creds × Access :=
  match c.call (.setegid gid) with
  | none => (c, .idError)
  | some c1 => match c1.call (.seteuid uid) with
    | none => (c1, .idError)
    | some c2 =>
      let res := eaccess c2
      match c2.call (.seteuid c.euid) with
      | none => (c2, .idError)
      | some c3 => match c3.call (.setegid c.egid) with
        | none => (c3, .idError)
        | some c4 => (c4, if res then .allowed else .denied)

end SB
