import Verif.Spec.Units

/-!
# Specification: what the texts of items are made of
-/

namespace TW.Spec

/-- A part of the text of an item: a character of the document, given by its offset, or a code: a line end, the character of a
reference, or a character of the text of a reference that is not resolved. -/
inductive Part where
  | char (k : Nat)
  | code (c : UChar)
  deriving DecidableEq, Repr

/-- The offsets of the characters of the document. -/
def offsets (ps : List Part) : List Nat := ps.filterMap fun p => match p with
  | .char k => some k
  | .code _ => none

/-- The bytes of a part in an output character set: the bytes of the document, if its character set is the same. -/
def Part.bytes (e : Enc) (f : Nat → Byte) (out : Enc) : Part → List Byte
  | .char k => if e = out then slice f k (ulen e f k) else out.print (uval e f k)
  | .code c => out.print c

/-- The bytes of a text in an output character set. -/
def pieced (e : Enc) (f : Nat → Byte) (out : Enc) (ps : List Part) : List Byte := ps.flatMap (Part.bytes e f out)

/-- A sequence of offsets of characters of the document in ascending order, none of them before `p`. -/
def InOrder (e : Enc) (f : Nat → Byte) (p : Nat) (ks : List Nat) : Prop :=
  ks.Pairwise (· < ·) ∧ ∀ k ∈ ks, p ≤ k ∧ ∃ i, offs e f 0 i = k

end TW.Spec
