import Verif.Model.Basic

/-!
# The XML header parser (xmlhdrparser.hpp)

`std::string` members are byte lists (the error message is a `String`). Indexing the source
outside of its bounds is undefined behaviour.
-/

namespace TW

/-- xmlhdrparser.hpp:346-357 `State`. -/
inductive HdrState where
  | Init | ParseXmlOpen | ParseXmlHdr | FindAttributeName | ParseAttributeName | FindAttributeAssign
  | FindAttributeValue | ParseAttributeValueSq | ParseAttributeValueDq
  deriving DecidableEq, Repr

/-- xmlhdrparser.hpp:359-364 `AttributeType`. -/
inductive HdrAttr where
  | Encoding | Version | Standalone
  deriving DecidableEq, Repr

/-- xmlhdrparser.hpp:373-381 the members, with the values of the constructor (31-36). -/
structure HdrParser where
  state : HdrState := .Init
  attributetype : HdrAttr := .Encoding
  idx : Nat := 0
  charsConsumed : Nat := 0
  zeroCount : Nat := 0
  item : List Byte := []
  src : List Byte := []
  encoding : List Byte := []
  lasterror : String := ""
  deriving DecidableEq, Repr

namespace HdrParser

/-- xmlhdrparser.hpp:31-36 the constructor. -/
def new : HdrParser := {}

/-- xmlhdrparser.hpp:40-47 the copy constructor: `m_encoding` and `m_lasterror` are not copied. -/
def copy (o : HdrParser) : HdrParser :=
  { state := o.state, attributetype := o.attributetype, idx := o.idx, charsConsumed := o.charsConsumed,
    zeroCount := o.zeroCount, item := o.item, src := o.src }

/-- xmlhdrparser.hpp:53-56 `putInput`. -/
def putInput (c : List Byte) : M HdrParser Unit := M.modify fun s => { s with src := s.src ++ c }

/-- xmlhdrparser.hpp:60-63 `consumedData`. -/
def consumedData (s : HdrParser) : List Byte := s.src

/-- xmlhdrparser.hpp:287-290 `lasterror`: null if there is no error. -/
def getLasterror (s : HdrParser) : Option String := if s.lasterror = "" then none else some s.lasterror

/-- xmlhdrparser.hpp:294-297 `encoding`: null if the encoding is empty. -/
def getEncoding (s : HdrParser) : Option (List Byte) := if s.encoding = [] then none else some s.encoding

/-- xmlhdrparser.hpp:307-318 `clear`. -/
def clear (s : HdrParser) : HdrParser :=
  { s with state := .Init, attributetype := .Encoding, idx := 0, charsConsumed := 0, zeroCount := 0, item := [],
           src := [], encoding := [], lasterror := "" }

/-- xmlhdrparser.hpp:321-324 `setError`. -/
def setError (m : String) : M HdrParser Unit := M.modify fun s => { s with lasterror := m }

/-- xmlhdrparser.hpp:328-341 the loop of `nextChar`; the argument is `4 - m_zeroCount`. -/
def nextLoop : Nat → M HdrParser Byte
  | 0 => M.stop (.throw .IllegalXmlHeader)
  | k + 1 => do
    let s ← M.get
    if s.src.length ≤ s.idx then pure 0
    else match s.src[s.idx]? with
      | none => M.stop .ub
      | some ch => do
        M.modify fun s => { s with idx := s.idx + 1 }
        if ch ≠ 0 then do
          M.modify fun s => { s with zeroCount := 0,
                                     charsConsumed := if 32 < ch then s.charsConsumed + 1 else s.charsConsumed }
          pure ch
        else do
          M.modify fun s => { s with zeroCount := s.zeroCount + 1 }
          nextLoop k

/-- xmlhdrparser.hpp:326-344 `nextChar`. -/
def nextChar : M HdrParser Byte := do
  let s ← M.get
  nextLoop (4 - s.zeroCount)

/-- `((ch|32) >= 'a' && (ch|32) <= 'z') || ch == '_'` (xmlhdrparser.hpp:98, 123, 155, 187). -/
def nameChar (ch : Byte) : Bool := (97 ≤ (ch ||| 32) && (ch ||| 32) ≤ 122) || ch = 95

/-- An error: `setError(m); return false`. -/
def fail (m : String) : M HdrParser (Option Bool) := do
  setError m
  pure (some false)

/-- Go on with the next character. -/
def go (f : HdrParser → HdrParser) : M HdrParser (Option Bool) := do
  M.modify f
  pure none

/-- xmlhdrparser.hpp:231-239, 253-261 the end of an attribute value. -/
def endValue (s : HdrParser) : HdrParser :=
  { s with encoding := if s.attributetype = .Encoding then s.item else s.encoding, item := [],
           state := .FindAttributeName }

/-- xmlhdrparser.hpp:160-181: the end of an attribute name; an unknown name is an error. -/
def endName (ch : Byte) (s : HdrParser) : M HdrParser (Option Bool) :=
  let next : HdrState := if ch = 61 then .FindAttributeValue else .FindAttributeAssign
  if s.item = [101, 110, 99, 111, 100, 105, 110, 103] then
    go fun s => { s with attributetype := .Encoding, item := [], state := next }
  else if s.item = [118, 101, 114, 115, 105, 111, 110] then
    go fun s => { s with attributetype := .Version, item := [], state := next }
  else if s.item = [115, 116, 97, 110, 100, 97, 108, 111, 110, 101] then
    go fun s => { s with attributetype := .Standalone, item := [], state := next }
  else fail "unknown xml header attribute name"

/-- xmlhdrparser.hpp:72-280 the `switch` of `parse` for a character: `none` is to go on with the
next character (`break`, `continue`), `some b` is to return `b`. The argument `s` is
the state of the object. -/
def switch (ch : Byte) (s : HdrParser) : M HdrParser (Option Bool) :=
  match s.state with
  | .Init =>
    if ch = 60 then go fun s => { s with state := .ParseXmlOpen }
    else if ch ≤ 32 then pure none
    else fail "expected open tag angle bracket '>'"
  | .ParseXmlOpen =>
    if ch = 63 then go fun s => { s with state := .ParseXmlHdr }
    else if ch ≤ 32 then pure none
    else if nameChar ch then pure (some true)
    else fail "expected xml header question mark '?' after open tag angle bracket '<'"
  | .ParseXmlHdr =>
    if ch ≤ 32 ∨ ch = 63 then
      if s.item ≠ [120, 109, 108] then fail "expected '<?xml' as xml header start"
      else if ch = 63 then do
        M.modify fun s => { s with item := [] }
        pure (some true)
      else go fun s => { s with item := [], state := .FindAttributeName }
    else if nameChar ch then go fun s => { s with item := s.item ++ [ch] }
    else if ch = 62 then fail "unexpected close angle bracket '>' in xml header after '<?xml'"
    else fail "expected '<?xml' as xml header start (invalid character)"
  | .FindAttributeName =>
    if ch ≤ 32 then pure none
    else if ch = 62 then fail "unexpected close angle bracket '>' in xml header (missing '?')"
    else if ch = 63 then pure (some true)
    else if nameChar ch then go fun s => { s with item := s.item ++ [ch], state := .ParseAttributeName }
    else fail "invalid character in xml header attribute name"
  | .ParseAttributeName =>
    if ch ≤ 32 ∨ ch = 61 then endName ch s
    else if nameChar ch then go fun s => { s with item := s.item ++ [ch] }
    else fail "invalid character in xml header attribute name"
  | .FindAttributeAssign =>
    if ch = 61 then go fun s => { s with state := .FindAttributeValue }
    else if ch ≤ 32 then pure none
    else fail "expected '=' after xml header attribute name"
  | .FindAttributeValue =>
    if ch = 34 then go fun s => { s with state := .ParseAttributeValueDq }
    else if ch = 39 then go fun s => { s with state := .ParseAttributeValueSq }
    else if ch ≤ 32 then pure none
    else fail "expected single or double quote string as xml header attribute value"
  | .ParseAttributeValueSq =>
    if ch = 39 then go endValue else go fun s => { s with item := s.item ++ [ch] }
  | .ParseAttributeValueDq =>
    if ch = 34 then go endValue else go fun s => { s with item := s.item ++ [ch] }

/-- The `switch` on the present state. -/
def consume (ch : Byte) : M HdrParser (Option Bool) := do
  let s ← M.get
  switch ch s

/-- xmlhdrparser.hpp:67-283 `parse`, with fuel for the loop. -/
def parse : Nat → M HdrParser Bool
  | 0 => M.stop .fuel
  | n + 1 => do
    let ch ← nextChar
    if ch = 0 then pure false
    else do
      let r ← consume ch
      match r with
      | some b => pure b
      | none => parse n

/-- What a caller of `parse` knows: the header was parsed, there is an error, or more input is
needed. -/
inductive Outcome where
  | done | failed | more
  deriving DecidableEq, Repr

/-- The use of the parser as its documentation describes it: put the next chunk, call `parse`,
and repeat as long as it returns false and there is no error (xmlhdrparser.hpp:65-66). -/
def feed (n : Nat) : List (List Byte) → M HdrParser Outcome
  | [] => pure .more
  | c :: cs => do
    putInput c
    let b ← parse n
    let s ← M.get
    if b = true then pure .done
    else if s.getLasterror ≠ none then pure .failed
    else feed n cs

/-- A call of the user. -/
inductive Call where
  | put (c : List Byte)
  | parse
  | chars
  deriving DecidableEq, Repr

/-- What a call returns: nothing, the result of `parse`, or the number of characters consumed. -/
inductive Ret where
  | none
  | parsed (b : Bool)
  | num (n : Nat)
  deriving DecidableEq, Repr

/-- Make a call. -/
def call (n : Nat) : Call → M HdrParser Ret
  | .put c => do putInput c; pure Ret.none
  | .parse => do let b ← parse n; pure (Ret.parsed b)
  | .chars => do let s ← M.get; pure (Ret.num s.charsConsumed)

/-- Make calls; a call that throws an exception ends the sequence. -/
def calls (n : Nat) : List Call → M HdrParser (List Ret)
  | [] => pure []
  | c :: cs => do
    let r ← call n c
    let rs ← calls n cs
    pure (r :: rs)

/-- What is observed: how the loop ended (an exception is a `stop`), the encoding, the last error
and the number of characters consumed. -/
def obs (x : Res Outcome × HdrParser) : Res Outcome × Option (List Byte) × Option String × Nat :=
  (x.1, x.2.getEncoding, x.2.getLasterror, x.2.charsConsumed)

end HdrParser

end TW
