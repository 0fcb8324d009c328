import Verif.Model.Json

/-!
# JSON texts (RFC 8259), as far as possible in the words of the RFC

`Spec.IsJson v t`: the text `t` is a JSON text for the value `v`.
-/

namespace SB

/-- White space (RFC 8259, 2): blanks, line feeds, tabs, carriage returns. -/
def Spec.Blank (w : Str) : Prop := ∀ c ∈ w, c = ' ' ∨ c = '\n' ∨ c = '\t' ∨ c = '\r'

/-- `u` with white space around it. -/
def Spec.Padded (t u : Str) : Prop := ∃ a b, Spec.Blank a ∧ Spec.Blank b ∧ t = a ++ u ++ b

def Spec.Digits (t : Str) : Prop := t ≠ [] ∧ ∀ c ∈ t, '0' ≤ c ∧ c ≤ '9'

/-- Numbers (RFC 8259, 6): an optional minus sign, digits without a leading zero, an optional fraction, an optional exponent. -/
def Spec.Number (t : Str) : Prop :=
  ∃ sign int frac exp, t = sign ++ int ++ frac ++ exp ∧ (sign = [] ∨ sign = ['-']) ∧ (int = ['0'] ∨ Spec.Digits int ∧ int.head? ≠ some '0') ∧
    (frac = [] ∨ ∃ d, Spec.Digits d ∧ frac = '.' :: d) ∧
    (exp = [] ∨ ∃ e d, (e = 'e' ∨ e = 'E') ∧ Spec.Digits d ∧ (exp = e :: d ∨ exp = e :: '+' :: d ∨ exp = e :: '-' :: d))

/-- The value of a hexadecimal digit. -/
def Spec.Hex (c : Char) (n : Nat) : Prop :=
  ('0' ≤ c ∧ c ≤ '9' ∧ n + 48 = c.toNat) ∨ ('a' ≤ c ∧ c ≤ 'f' ∧ n + 87 = c.toNat) ∨ ('A' ≤ c ∧ c ≤ 'F' ∧ n + 55 = c.toNat)

def Spec.Hex4 (t : Str) (n : Nat) : Prop :=
  ∃ a b c d na nb nc nd, t = [a, b, c, d] ∧ Spec.Hex a na ∧ Spec.Hex b nb ∧ Spec.Hex c nc ∧ Spec.Hex d nd ∧ n = na * 4096 + nb * 256 + nc * 16 + nd

/-- One character of a string (RFC 8259, 7): itself, unless it is a quotation mark, a backslash or a control character; a backslash and a letter; `\u` and the code; or two `\u` for the two
surrogates of a code above U+FFFF. -/
def Spec.CharText (c : Char) (t : Str) : Prop :=
  (t = [c] ∧ 0x20 ≤ c.toNat ∧ c ≠ '"' ∧ c ≠ '\\') ∨
  (∃ e, t = ['\\', e] ∧ (e, c) ∈ [('"', '"'), ('\\', '\\'), ('/', '/'), ('b', Char.ofNat 8), ('f', Char.ofNat 12), ('n', '\n'), ('r', '\r'), ('t', '\t')]) ∨
  (∃ h, t = '\\' :: 'u' :: h ∧ Spec.Hex4 h c.toNat) ∨
  (∃ h h' n n', t = '\\' :: 'u' :: (h ++ '\\' :: 'u' :: h') ∧ Spec.Hex4 h (0xD800 + n) ∧ Spec.Hex4 h' (0xDC00 + n') ∧ n < 0x400 ∧ n' < 0x400 ∧ c.toNat = 0x10000 + n * 0x400 + n')

def Spec.CharsText : Str → Str → Prop
  | [], t => t = []
  | c :: s, t => ∃ a b, Spec.CharText c a ∧ Spec.CharsText s b ∧ t = a ++ b

/-- A string: its characters between quotation marks. -/
def Spec.Quoted (s t : Str) : Prop := ∃ u, Spec.CharsText s u ∧ t = '"' :: (u ++ ['"'])

mutual
/-- The text is a JSON text for the value. -/
def Spec.IsJson : Json → Str → Prop
  | .null, t => Spec.Padded t (str "null")
  | .bool b, t => Spec.Padded t (if b then str "true" else str "false")
  | .num s, t => Spec.Number s ∧ Spec.Padded t s
  | .str s, t => ∃ u, Spec.Quoted s u ∧ Spec.Padded t u
  | .arr l, t => ∃ u, Spec.Elements l u ∧ Spec.Padded t ('[' :: (u ++ [']']))
  | .obj l, t => ∃ u, Spec.Members l u ∧ Spec.Padded t ('{' :: (u ++ ['}']))

/-- Values separated by commas. -/
def Spec.Elements : List Json → Str → Prop
  | [], t => Spec.Blank t
  | v :: r, t => ∃ a, Spec.IsJson v a ∧ (r = [] ∧ t = a ∨ r ≠ [] ∧ ∃ b, Spec.Elements r b ∧ t = a ++ ',' :: b)

/-- Names and values separated by commas. -/
def Spec.Members : List (Str × Json) → Str → Prop
  | [], t => Spec.Blank t
  | (x, v) :: r, t => ∃ q p a, Spec.Quoted x q ∧ Spec.Padded p q ∧ Spec.IsJson v a ∧ (r = [] ∧ t = p ++ ':' :: a ∨ r ≠ [] ∧ ∃ b, Spec.Members r b ∧ t = p ++ ':' :: (a ++ ',' :: b))
end

end SB
