import Verif.Spec.Units

/-!
# Specification: encodings of characters
-/

namespace TW.Spec

/-- The bytes `bs` stand in the stream `f` from offset `k` on. -/
def At (f : Nat → Byte) (k : Nat) : List Byte → Prop
  | [] => True
  | b :: bs => f k = b ∧ At f (k + 1) bs

/-- RFC 2279: the shortest UTF-8 encoding of a code below 2^31. -/
def rfc2279 (c : Nat) : List Byte :=
  if c < 0x80 then [c]
  else if c < 0x800 then [0xC0 + c / 2 ^ 6, 0x80 + c % 64]
  else if c < 0x10000 then [0xE0 + c / 2 ^ 12, 0x80 + c / 2 ^ 6 % 64, 0x80 + c % 64]
  else if c < 0x200000 then
    [0xF0 + c / 2 ^ 18, 0x80 + c / 2 ^ 12 % 64, 0x80 + c / 2 ^ 6 % 64, 0x80 + c % 64]
  else if c < 0x4000000 then
    [0xF8 + c / 2 ^ 24, 0x80 + c / 2 ^ 18 % 64, 0x80 + c / 2 ^ 12 % 64, 0x80 + c / 2 ^ 6 % 64,
      0x80 + c % 64]
  else
    [0xFC + c / 2 ^ 30, 0x80 + c / 2 ^ 24 % 64, 0x80 + c / 2 ^ 18 % 64, 0x80 + c / 2 ^ 12 % 64,
      0x80 + c / 2 ^ 6 % 64, 0x80 + c % 64]

/-- Lower case hexadecimal digit. -/
def hexDigit (d : Nat) : Byte := if d < 10 then 48 + d else 97 + (d - 10)

/-- `bs` is the hexadecimal numeral of `n` without leading zeros. -/
inductive IsHex : List Byte → Nat → Prop where
  | digit (d : Nat) : 0 < d → d < 16 → IsHex [hexDigit d] d
  | snoc (bs : List Byte) (n d : Nat) : IsHex bs n → d < 16 →
      IsHex (bs ++ [hexDigit d]) (n * 16 + d)

/-- `bs` is the hexadecimal character reference of `c`. -/
def IsEntity (bs : List Byte) (c : Nat) : Prop :=
  ∃ ds, IsHex ds c ∧ bs = [38, 35, 120] ++ ds ++ [59]

/-- Two bytes of a 16 bit unit. -/
def bytes16 (be : Bool) (u : Nat) : List Byte :=
  if be then [u / 256, u % 256] else [u % 256, u / 256]

/-- A 16 bit encoding of ASCII bytes. -/
def wide (be : Bool) (bs : List Byte) : List Byte := bs.flatMap (bytes16 be)

/-- Characters that are encoded directly, not as character reference. For
ISO-Latin these are the codes printed as a single byte. -/
def Direct (e : Enc) (c : UChar) : Prop :=
  match e with
  | .utf8 => c ≤ 0x7FFFFFFF
  | .utf16 _ => c ≤ 0x10FFFF ∧ ¬ (0xD800 ≤ c ∧ c < 0xDC00)
  | .ucs2 _ => c ≤ 0xFFFF
  | .ucs4 _ => c < 2 ^ 32
  | .isolatin page => (Enc.isolatinPrint page c).length = 1

end TW.Spec
