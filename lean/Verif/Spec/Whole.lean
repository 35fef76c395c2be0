import Verif.Spec.Units

/-!
# Specification: texts that do not end inside of a character
-/

namespace TW.Spec

/-- Number of bytes of the character that begins with a byte, in the character sets of single bytes. -/
def leadLen : Enc → Byte → Nat
  | .utf8, b => utf8Len b
  | _, _ => 1

/-- Only whole characters: each first byte is followed by as many as it announces. -/
inductive Whole (e : Enc) : List Byte → Prop
  | nil : Whole e []
  | cons (b : Byte) (bs rest : List Byte) (h : bs.length + 1 = leadLen e b) (k : Whole e rest) : Whole e (b :: bs ++ rest)

end TW.Spec
