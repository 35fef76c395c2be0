import Verif.Model.HdrParser

/-!
# Using a header parser again (xmlhdrparser.hpp)

All public calls of the header parser by a client that catches the exceptions.
-/

namespace TW

namespace HdrParser

/-- A call. -/
inductive Use where
  | put (c : List Byte)
  | parse
  | encoding
  | error
  | chars
  | data
  | clear
  deriving DecidableEq, Repr

/-- What the client sees; an exception of `parse` is a `stop`. -/
inductive Seen where
  | nothing
  | parsed (r : Res Bool)
  | text (t : Option (List Byte))
  | message (m : Option String)
  | num (n : Nat)
  | bytes (b : List Byte)
  deriving DecidableEq, Repr

/-- One call: xmlhdrparser.hpp:53-56, 67-283, 294-297, 287-290, 301-304, 60-63, 307-318. -/
def use (n : Nat) (s : HdrParser) : Use → Seen × HdrParser
  | .put c => (.nothing, (putInput c s).2)
  | .parse => (.parsed (parse n s).1, (parse n s).2)
  | .encoding => (.text s.getEncoding, s)
  | .error => (.message s.getLasterror, s)
  | .chars => (.num s.charsConsumed, s)
  | .data => (.bytes s.consumedData, s)
  | .clear => (.nothing, s.clear)

/-- A sequence of calls. -/
def uses (n : Nat) : List Use → HdrParser → List Seen × HdrParser
  | [], s => ([], s)
  | u :: us, s => ((use n s u).1 :: (uses n us (use n s u).2).1, (uses n us (use n s u).2).2)

/-- What is known about a document. -/
structure Known where
  outcome : Res Outcome
  encoding : Option (List Byte)
  error : Option String
  chars : Nat
  data : List Byte
  deriving DecidableEq, Repr

/-- What is known after using the parser. -/
def known (r : Res Outcome × HdrParser) : Known :=
  ⟨r.1, r.2.getEncoding, r.2.getLasterror, r.2.charsConsumed, r.2.consumedData⟩

/-- One parser for several documents, each given in chunks: the use as documented, then `clear`. -/
def again (n : Nat) : List (List (List Byte)) → HdrParser → List Known
  | [], _ => []
  | parts :: docs, s =>
    known (feed n parts s) :: again n docs (feed n parts s).2.clear

end HdrParser

end TW
