import Verif.Model.XMLScanner

/-!
# The iterator of the XML scanner

xmlscanner.hpp:1201-1354. The iterator and its elements hold pointers: `input` to the scanner, `m_content` into the
output buffer of the scanner or to a literal. Reading through `m_content` gives what is in the buffer at that time. The
buffer is a `std::string` that is cleared before a new item is read; the model lets it stay at the same place in memory
(if it has to grow, the pointers of older elements are even invalid).
-/

namespace TW

/-- What `m_content` points to: nothing, the literal of xmlscanner.hpp:1050, or the output buffer. -/
inductive Mem where
  | null | zeros | item
  deriving DecidableEq, Repr

/-- xmlscanner.hpp:1206-1241 `Element`. -/
structure Element where
  type : ElementType
  content : Mem
  size : Nat
  deriving DecidableEq, Repr

/-- xmlscanner.hpp:1250-1251 members of `iterator`. `input` tells whether the pointer to the scanner is not null. -/
structure Iterator where
  element : Element
  input : Bool
  deriving DecidableEq, Repr

/-- xmlscanner.hpp:230-251 `getErrorString`. -/
def errorString : Err → Option String
  | .Ok => none
  | .ErrIllegalDocumentAttributeDef => some "illegal document attribute definition"
  | .ErrExpectedOpenTag => some "expected open tag"
  | .ErrExpectedXMLTag => some "expected XML tag"
  | .ErrUnexpectedEndOfText => some "unexpected end of text"
  | .ErrSyntaxToken => some "syntax token"
  | .ErrStringNotTerminated => some "string not terminated"
  | .ErrUndefinedCharacterEntity => some "undefined character entity"
  | .ErrExpectedTagEnd => some "expected tag end"
  | .ErrExpectedEqual => some "expected equal"
  | .ErrExpectedTagAttribute => some "expected tag attribute"
  | .ErrExpectedCDATATag => some "expected CDATA tag"
  | .ErrInternal => some "internal (illegal state)"
  | .ErrUnexpectedEndOfInput => some "unexpected end of input"
  | .ErrExpectedEndOfLine => some "expected end of line"
  | .ErrExpectedDash2 => some "expected 2nd '-' to complete marker for start of comment '<!--'"

namespace Element

/-- xmlscanner.hpp:1234 default constructor. -/
def none : Element := { type := .None, content := .null, size := 0 }

/-- xmlscanner.hpp:1236 constructor of the end tag. -/
def fin : Element := { type := .Exit, content := .null, size := 0 }

/-- xmlscanner.hpp:1217 `valid`. -/
def valid (el : Element) : Bool := el.type != .Exit && el.type != .ErrorOccurred

/-- xmlscanner.hpp:1220 `error`. -/
def error (el : Element) : Mem := if el.type = .ErrorOccurred then el.content else .null

end Element

namespace Scanner

variable {ρ : Type} [Reader ρ]

/-- xmlscanner.hpp:1260-1262 and 1300-1302: the element for the item just read, with `getItemPtr` (1050) and
`getItemSize` (1054). -/
def element (r : ElementType) (s : Scanner ρ) : Element :=
  { type := r, content := if s.out.length = 0 then .zeros else .item, size := s.out.length }

/-- The bytes a program gets when it reads `k` bytes at the pointer; reading at a null pointer or behind the terminator
of the buffer is undefined. The literal has five null bytes. -/
def readMem (s : Scanner ρ) (p : Mem) (k : Nat) : Res (List Byte) :=
  match p with
  | .null => if k = 0 then .ok [] else .stop .ub
  | .zeros => if k ≤ 5 then .ok (List.replicate k 0) else .stop .ub
  | .item => if k ≤ s.out.length + 1 then .ok ((s.out ++ [0]).take k) else .stop .ub

/-- The C string at the pointer (up to the first null byte). -/
def readStr (s : Scanner ρ) (p : Mem) : Option (List Byte) :=
  match p with
  | .null => none
  | .zeros => some []
  | .item => some (s.out.takeWhile (· ≠ 0))

/-- xmlscanner.hpp:1256-1265 `iterator::skip`. If `nextItem` is left, the element stays as it is. -/
def iterSkip (n : Nat) (mask : Nat) (it : Iterator) : M (Scanner ρ) Iterator :=
  if it.input then do
    let r ← nextItem n mask
    let s ← M.get
    pure { it with element := element r s }
  else pure it

/-- xmlscanner.hpp:1344-1347 `begin`, 1295-1304 constructor. -/
def iterBegin (n : Nat) (doSkipToFirst : Bool := true) : M (Scanner ρ) Iterator :=
  if doSkipToFirst then do
    let r ← nextItem n 0xFFFF
    let s ← M.get
    pure { element := element r s, input := true }
  else pure { element := .none, input := true }

/-- xmlscanner.hpp:1350-1353 `end`. -/
def iterEnd : Iterator := { element := .fin, input := false }

/-- xmlscanner.hpp:1270-1277 `compare`. -/
def iterEq (a b : Iterator) : Bool :=
  if a.element.type = b.element.type then
    if a.element.type = .Exit ∨ a.element.type = .None then true else false
  else false

/-- xmlscanner.hpp:1328 prefix increment. -/
def iterPre (n : Nat) (it : Iterator) : M (Scanner ρ) Iterator := iterSkip n 0xFFFF it

/-- xmlscanner.hpp:1331 postfix increment: the iterator returned and the one incremented. -/
def iterPost (n : Nat) (it : Iterator) : M (Scanner ρ) (Iterator × Iterator) := do
  let it' ← iterSkip n 0xFFFF it
  pure (it, it')

/-- `it++` if `post`, else `++it`, as a statement. -/
def iterInc (n : Nat) (post : Bool) (it : Iterator) : M (Scanner ρ) Iterator :=
  if post then (do let p ← iterPost n it; pure p.2) else iterPre n it

/-- Type and text of the element the iterator is at, read now. -/
def iterSees (it : Iterator) : M (Scanner ρ) (ElementType × List Byte) := fun s =>
  match readMem s it.element.content it.element.size with
  | .ok x => (.ok (it.element.type, x), s)
  | .stop er => (.stop er, s)

/-- The loop `for (; it != end(); ++it)` as in examples/XMLScanner.cpp:15-31 without the check for errors (or, if `post`,
with `it++` as in tests/test_XMLScanner.cpp:54), stopped after `k` rounds. The types and texts seen, and whether the end
was reached. -/
def iterLoop (n : Nat) (post : Bool) : Nat → Iterator → M (Scanner ρ) (List (ElementType × List Byte) × Bool)
  | 0, _ => pure ([], false)
  | k + 1, it =>
    if iterEq it iterEnd then pure ([], true) else do
      let x ← iterSees it
      let it' ← iterInc n post it
      let (xs, d) ← iterLoop n post k it'
      pure (x :: xs, d)

/-- The loop `for (it = begin(); it != end(); ++it)`, stopped after `k` rounds. -/
def iterate (n : Nat) (post : Bool) (k : Nat) : M (Scanner ρ) (List (ElementType × List Byte) × Bool) := do
  let it ← iterBegin n
  iterLoop n post k it

end Scanner

end TW
