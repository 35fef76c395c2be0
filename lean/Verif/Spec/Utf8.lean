import Verif.Model.Basic

/-!
# Specification: UTF-8 byte sequences (RFC 2279), not necessarily shortest
-/

namespace TW.Spec

/-- A continuation byte. -/
def IsCont (b : Byte) : Prop := 0x80 ≤ b ∧ b < 0xC0

/-- `bs` is a UTF-8 sequence for the code `c`, of any of the possible lengths. -/
def IsUtf8 (bs : List Byte) (c : Nat) : Prop :=
  match bs with
  | [b] => b < 0x80 ∧ c = b
  | [a, b] => 0xC0 ≤ a ∧ a < 0xE0 ∧ IsCont b ∧ c = (a - 0xC0) * 2 ^ 6 + (b - 0x80)
  | [a, b, d] => 0xE0 ≤ a ∧ a < 0xF0 ∧ IsCont b ∧ IsCont d ∧
      c = (a - 0xE0) * 2 ^ 12 + (b - 0x80) * 2 ^ 6 + (d - 0x80)
  | [a, b, d, g] => 0xF0 ≤ a ∧ a < 0xF8 ∧ IsCont b ∧ IsCont d ∧ IsCont g ∧
      c = (a - 0xF0) * 2 ^ 18 + (b - 0x80) * 2 ^ 12 + (d - 0x80) * 2 ^ 6 + (g - 0x80)
  | [a, b, d, g, h] => 0xF8 ≤ a ∧ a < 0xFC ∧ IsCont b ∧ IsCont d ∧ IsCont g ∧ IsCont h ∧
      c = (a - 0xF8) * 2 ^ 24 + (b - 0x80) * 2 ^ 18 + (d - 0x80) * 2 ^ 12 + (g - 0x80) * 2 ^ 6
        + (h - 0x80)
  | [a, b, d, g, h, i] => 0xFC ≤ a ∧ a < 0xFE ∧ IsCont b ∧ IsCont d ∧ IsCont g ∧ IsCont h ∧
      IsCont i ∧ c = (a - 0xFC) * 2 ^ 30 + (b - 0x80) * 2 ^ 24 + (d - 0x80) * 2 ^ 18
        + (g - 0x80) * 2 ^ 12 + (h - 0x80) * 2 ^ 6 + (i - 0x80)
  | _ => False

end TW.Spec
