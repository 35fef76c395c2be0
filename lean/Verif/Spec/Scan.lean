import Verif.Spec.Units

/-!
# Specification: documents for the scanner
-/

namespace TW.Spec

/-- Every byte that announces a UTF-8 sequence is followed by its continuation bytes. -/
def Continued (doc : List Byte) : Prop :=
  ∀ k i, 0xC0 ≤ strm doc k → 1 ≤ i → i < utf8Len (strm doc k) →
    0x80 ≤ strm doc (k + i) ∧ strm doc (k + i) < 0xC0

/-- The ASCII value of the character number `i` of a document, 255 if it is not ASCII, 0
behind the end. -/
def charAt (e : Enc) (doc : List Byte) (i : Nat) : Byte := uasc e (strm doc) (offs e (strm doc) 0 i)

/-- White space and control characters. -/
def White (c : Byte) : Prop := 1 ≤ c ∧ c ≤ 32

/-- After a `<` and white space there is no `!`, and no `?` unless the document starts with
it: the document has no comments, document type declarations, CDATA sections or processing
instructions. It may have an XML header. -/
def NoMarkup (e : Enc) (doc : List Byte) : Prop :=
  ∀ i j, i < j → charAt e doc i = 60 → (∀ l, i < l → l < j → White (charAt e doc l)) →
    charAt e doc j ≠ 33 ∧ (charAt e doc j = 63 → ∀ l, l < i → White (charAt e doc l))

end TW.Spec
