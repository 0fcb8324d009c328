import Verif.Basic

/-!
# Names of mount directories in the storage

`data_encoding::BASE32_NOPAD.encode(dir.as_bytes())` (src/sandbox/mount_overlays.rs:183-184, src/config/resolve.rs:278,
src/sandbox/get_or_create.rs:49) and `BASE32_NOPAD_NOCASE.decode` + `String::from_utf8` (src/sandbox/changes/changes.rs:229-237, 298-319).
The crate is not part of the repository; RFC 4648 base 32 without padding is transcribed here.  Bytes are natural numbers below 256.
-/

namespace SB

/-- UTF-8 encoding of one character (`str::as_bytes`, std). -/
def utf8Char (c : Char) : List Nat :=
  let n := c.toNat
  if n < 0x80 then [n]
  else if n < 0x800 then [0xC0 + n / 64, 0x80 + n % 64]
  else if n < 0x10000 then [0xE0 + n / 4096, 0x80 + n / 64 % 64, 0x80 + n % 64]
  else [0xF0 + n / 262144, 0x80 + n / 4096 % 64, 0x80 + n / 64 % 64, 0x80 + n % 64]

/-- `str::as_bytes` (std). -/
def utf8 (s : Str) : List Nat := s.flatMap utf8Char

def isCont (b : Nat) : Bool := 0x80 ≤ b && b < 0xC0

/-- `String::from_utf8` (std): rejects stray continuation bytes, overlong forms, surrogates and values above 10FFFF. -/
def utf8Decode : List Nat → Option Str
  | [] => some []
  | a :: r =>
    if a < 0x80 then (utf8Decode r).map (Char.ofNat a :: ·)
    else if a < 0xC0 then none
    else if a < 0xE0 then
      match r with
      | b :: r =>
        let n := (a - 0xC0) * 64 + (b - 0x80)
        if isCont b && 0x80 ≤ n then (utf8Decode r).map (Char.ofNat n :: ·) else none
      | _ => none
    else if a < 0xF0 then
      match r with
      | b :: c :: r =>
        let n := (a - 0xE0) * 4096 + (b - 0x80) * 64 + (c - 0x80)
        if isCont b && isCont c && 0x800 ≤ n && !(0xD800 ≤ n && n < 0xE000) then (utf8Decode r).map (Char.ofNat n :: ·) else none
      | _ => none
    else
      match r with
      | b :: c :: d :: r =>
        let n := (a - 0xF0) * 262144 + (b - 0x80) * 4096 + (c - 0x80) * 64 + (d - 0x80)
        if isCont b && isCont c && isCont d && 0x10000 ≤ n && n < 0x110000 then (utf8Decode r).map (Char.ofNat n :: ·) else none
      | _ => none

/-- The `w` low bits, most significant first. -/
def bitsOf : Nat → Nat → List Bool
  | 0, _ => []
  | w + 1, n => bitsOf w (n / 2) ++ [n % 2 == 1]

def ofBits (l : List Bool) : Nat := l.foldl (fun a b => 2 * a + b.toNat) 0

/-- Groups of five bits, the last filled up with zeros (RFC 4648 §6). -/
def group5 : List Bool → List (List Bool)
  | a :: b :: c :: d :: e :: r => [a, b, c, d, e] :: group5 r
  | [] => []
  | l => [l ++ List.replicate (5 - l.length) false]

/-- Groups of eight bits and what is left over. -/
def group8 : List Bool → List (List Bool) × List Bool
  | a :: b :: c :: d :: e :: f :: g :: h :: r => ([a, b, c, d, e, f, g, h] :: (group8 r).1, (group8 r).2)
  | l => ([], l)

/-- Alphabet `A–Z2–7`. -/
def symbol32 (v : Nat) : Char := if v < 26 then Char.ofNat (65 + v) else Char.ofNat (50 + (v - 26))

/-- Value of a symbol, upper or lower case (`BASE32_NOPAD_NOCASE`). -/
def value32 (c : Char) : Option Nat :=
  let n := c.toNat
  if 65 ≤ n ∧ n ≤ 90 then some (n - 65)
  else if 97 ≤ n ∧ n ≤ 122 then some (n - 97)
  else if 50 ≤ n ∧ n ≤ 55 then some (n - 50 + 26)
  else none

/-- `BASE32_NOPAD.encode` -/
def base32Encode (bytes : List Nat) : Str := (group5 (bytes.flatMap (bitsOf 8))).map (fun g => symbol32 (ofBits g))

/-- `BASE32_NOPAD_NOCASE.decode`: fails on a character outside the alphabet, on an impossible length (five or more bits left over) and on
left-over bits that are not zero. -/
def base32Decode (s : Str) : Option (List Nat) :=
  match s.mapM value32 with
  | none => none
  | some vs =>
    let (gs, rest) := group8 (vs.flatMap (bitsOf 5))
    if rest.length < 5 ∧ rest.all (· == false) then some (gs.map ofBits) else none

/-- src/sandbox/mount_overlays.rs:183-184: storage directory name of a mount point. -/
def mountName (mp : Path) : Name := base32Encode (utf8 (display mp))

/-- src/sandbox/changes/changes.rs:298-319: mount point of a storage directory name.  Simplification: a decoded text that does not start with `/` (never
produced by `mountName`) is read as if it did. -/
def decodeMount (m : Name) : Option Path :=
  match base32Decode m with
  | none => none
  | some bytes => (utf8Decode bytes).map components

end SB
