import Verif.Model.Iter
import Verif.Spec.Units

/-!
# Specification: the byte stream an input source stands for
-/

namespace TW.Spec

/-- The stream of a C string read with a 32 bit position counter: the string, null
bytes, and the same again after 2^32 bytes. -/
def cyc (src : List Byte) (k : Nat) : Byte :=
  if k % 2 ^ 32 < src.length % 2 ^ 32 then src.getD (k % 2 ^ 32) 0 else 0

/-- Bytes delivered by a schedule of reads up to the first failing one. A read of no
bytes counts as one null byte. -/
def deliver : List ReadEvent → List Byte
  | [] => []
  | .fail :: _ => []
  | .data [] :: es => 0 :: deliver es
  | .data (b :: bs) :: es => b :: bs ++ deliver es

/-- Does a read fail? -/
def failing : List ReadEvent → Bool
  | [] => false
  | .fail :: _ => true
  | .data _ :: es => failing es

/-- Every read delivers bytes, and not more than the buffer can hold. -/
def GoodReads (bufsize : Nat) (es : List ReadEvent) : Prop :=
  ∀ bs, ReadEvent.data bs ∈ es → bs.length ≤ bufsize

/-- No read delivers nothing. -/
def NoEmpty (es : List ReadEvent) : Prop := ReadEvent.data [] ∉ es

end TW.Spec
