import Verif.Model.TextScanner
import Verif.Model.TagStack
import Verif.Spec.Print

/-!
# The XML printer (xmlprinter.hpp)

The output buffer, an argument of all calls of any type with `push_back`, is a field of the state: all calls of a
history get the same buffer (`Model/Output` has other types of buffers and histories with several). A `const char*` argument with a size is the list of its bytes; one without a size
is a list that is cut at its first NUL byte.
-/

namespace TW

/-- xmlprinter.hpp:342-348 `State`. -/
inductive PrintState where
  | Init | Content | TagAttribute | TagElement
  deriving DecidableEq, Repr

/-- What the printer needs of the template parameter `BufferType`: `push_back` of a byte. -/
class OutBuffer (β : Type) where
  push : Byte → M β Unit

/-- `std::string::push_back`. -/
instance : OutBuffer (List Byte) := ⟨fun c l => (.ok (), l ++ [c])⟩

/-- `push_back` of each byte. -/
def pushAll {β : Type} [OutBuffer β] : List Byte → M β Unit
  | [] => pure ()
  | c :: cs => do OutBuffer.push c; pushAll cs

/-- xmlprinter.hpp:365-368 the members, and the output buffer. `app` is the template parameter
`AppCharset` (an instance made by its default constructor), `out` the member `m_output`. -/
structure PrinterTo (β : Type) where
  state : PrintState
  tagstack : TagStack
  app : Enc
  out : Enc
  lasterror : Option String
  buf : β

/-- Printing to a string. -/
abbrev Printer := PrinterTo (List Byte)

namespace Printer

variable {β : Type}

/-- xmlprinter.hpp:139-146 the constructors; `mem` is the content of the block the tag stack
allocates. -/
def newTo (mem : Nat → Byte) (app out : Enc) (subDocument : Bool) (buf : β) : PrinterTo β :=
  { state := if subDocument then .Content else .Init, tagstack := TagStack.new mem, app, out, lasterror := none,
    buf }

/-- A printer with an empty string. -/
def new (mem : Nat → Byte) (app out : Enc) (subDocument : Bool) : Printer := newTo mem app out subDocument []

/-- xmlprinter.hpp:149-151 the copy constructor. -/
def copy (mem : Nat → Byte) (o : PrinterTo β) : PrinterTo β := { o with tagstack := TagStack.copy mem o.tagstack }

/-- xmlprinter.hpp:155-160 `reset`. -/
def reset (subDocument : Bool) (s : PrinterTo β) : PrinterTo β :=
  { s with state := if subDocument then .Content else .Init, tagstack := s.tagstack.clear, lasterror := none }

variable [OutBuffer β]

/-- Append to the buffer (`push_back` of each byte). -/
def emit (bs : List Byte) : M (PrinterTo β) Unit := M.zoom (·.buf) (fun b s => { s with buf := b }) (pushAll bs)

/-- xmlprinter.hpp:43-48, 84-96 the loop over the characters of a string, with fuel; `g` gives what
is printed for a character. What is printed is collected and appended to the buffer by the
caller. -/
def printLoop (g : UChar → List Byte) : Nat → M (TextScanner CStr) (List Byte)
  | 0 => M.stop .fuel
  | n + 1 => do
    let ch ← TextScanner.chr
    if ch = 0 then pure []
    else do
      TextScanner.skip
      let rest ← printLoop g n
      pure (g ch ++ rest)

/-- Run the loop on a string. It ends after at most one iteration for each byte and one for the end
of the string (this is proved, the fuel is never exhausted). -/
def printChars (g : UChar → List Byte) (src : List Byte) : M (PrinterTo β) Unit := do
  let s ← M.get
  match (printLoop g (src.length + 1) (TextScanner.mk' s.app (CStr.mk' src))).1 with
  | .ok bs => emit bs
  | .stop e => M.stop e

/-- xmlprinter.hpp:38-49 `printToBuffer`. -/
def printToBuffer (src : List Byte) : M (PrinterTo β) Unit := do
  let s ← M.get
  printChars s.out.print src

/-- xmlprinter.hpp:128-131 `printToBuffer` for a character. -/
def printChar (ch : Byte) : M (PrinterTo β) Unit := do
  let s ← M.get
  emit (s.out.print ch)

/-- xmlprinter.hpp:57-70 `printEsc`: `tab` holds the characters of `echr` with the strings of
`estr`; `memchr` finds the first. -/
def printEsc (out : Enc) (tab : List (Byte × List Byte)) (ch : Byte) : List Byte :=
  match tab.find? (·.1 = ch) with
  | some (_, str) => str.flatMap out.print
  | none => out.print ch

/-- xmlprinter.hpp:79-97 `printToBufferSubstChr`. -/
def printSubst (tab : List (Byte × List Byte)) (src : List Byte) : M (PrinterTo β) Unit := do
  let s ← M.get
  printChars (fun ch => if ch < 128 then printEsc s.out tab ch else s.out.print ch) src

/-- `"&lt;"` -/
def sLt : List Byte := [38, 108, 116, 59]
/-- `"&gt;"` -/
def sGt : List Byte := [38, 103, 116, 59]
/-- `"&apos;"` -/
def sApos : List Byte := [38, 97, 112, 111, 115, 59]
/-- `"&quot;"` -/
def sQuot : List Byte := [38, 113, 117, 111, 116, 59]
/-- `"&amp;"` -/
def sAmp : List Byte := [38, 97, 109, 112, 59]
/-- `"&#0;"` -/
def s0 : List Byte := [38, 35, 48, 59]
/-- `"&#8;"` -/
def s8 : List Byte := [38, 35, 56, 59]
/-- `"&#9;"` -/
def s9 : List Byte := [38, 35, 57, 59]
/-- `"&#10;"` -/
def s10 : List Byte := [38, 35, 49, 48, 59]
/-- `"&#13;"` -/
def s13 : List Byte := [38, 35, 49, 51, 59]

/-- xmlprinter.hpp:105-107 the table for attribute values. The array of 12 elements has two more NUL
characters (with null pointers as strings) behind the first, which `memchr` does not reach. -/
def attrTab : List (Byte × List Byte) :=
  [(60, sLt), (62, sGt), (39, sApos), (34, sQuot), (38, sAmp), (0, s0), (8, s8), (9, s9), (10, s10), (13, s13)]

/-- xmlprinter.hpp:119-121 the table for content. -/
def contentTab : List (Byte × List Byte) := [(60, sLt), (62, sGt), (38, sAmp), (0, s0), (8, s8)]

/-- xmlprinter.hpp:103-111 `printToBufferAttributeValue`. -/
def printAttributeValue (src : List Byte) : M (PrinterTo β) Unit := do
  printChar 34
  printSubst attrTab src
  printChar 34

/-- xmlprinter.hpp:117-123 `printToBufferContent`. -/
def printContent (src : List Byte) : M (PrinterTo β) Unit := printSubst contentTab src

/-- A null terminated string. -/
def cstr (s : List Byte) : List Byte := s.takeWhile (· ≠ 0)

/-- The bytes of a literal. -/
def lit (s : String) : List Byte := s.toList.map (·.toNat)

/-- Set the error and return false. -/
def fail (m : String) : M (PrinterTo β) Bool := do
  M.modify fun s => { s with lasterror := some m }
  pure false

/-- Set the state and return true. -/
def enter (st : PrintState) : M (PrinterTo β) Bool := do
  M.modify fun s => { s with state := st }
  pure true

/-- xmlprinter.hpp:175-184 the part of the header from the encoding on. -/
def headerTail : Option (List Byte) → M (PrinterTo β) Unit
  | some sa => do
    printToBuffer (lit "\" standalone=\"")
    printToBuffer (cstr sa)
    printToBuffer (lit "\"?>\n")
  | none => printToBuffer (lit "\"?>\n")

/-- xmlprinter.hpp:172 the name of the encoding. -/
def encodingName : Option (List Byte) → List Byte
  | some e => cstr e
  | none => lit "UTF-8"

/-- xmlprinter.hpp:165-187 `printHeader`. -/
def printHeader (encoding standalone : Option (List Byte)) : M (PrinterTo β) Bool := do
  let s ← M.get
  if s.state ≠ .Init then fail "printing xml header not at the beginning of the document"
  else do
    printToBuffer (lit "<?xml version=\"1.0\" encoding=\"")
    printToBuffer (encodingName encoding)
    headerTail standalone
    enter .Content

/-- xmlprinter.hpp:195-230 `printDoctype`. The sizes 11 and 2 given for the literals at 224 and 226
include the terminating NUL. -/
def printDoctype : Option (List Byte) → Option (List Byte) → Option (List Byte) → M (PrinterTo β) Bool
  | none, _, _ => pure true
  | some _, some _, none => fail "defined DOCTYPE with PUBLIC id but no SYSTEM id"
  | some rootid, some publicid, some systemid => do
    printToBuffer (lit "<!DOCTYPE ")
    printToBuffer (cstr rootid)
    printToBuffer (lit " PUBLIC \"")
    printToBuffer (cstr publicid)
    printToBuffer (lit "\" \"")
    printToBuffer (cstr systemid)
    printToBuffer (lit "\">")
    pure true
  | some rootid, none, some systemid => do
    printToBuffer (lit "<!DOCTYPE ")
    printToBuffer (cstr rootid)
    printToBuffer (lit " SYSTEM \"")
    printToBuffer (cstr systemid)
    printToBuffer (lit "\">")
    pure true
  | some rootid, none, none => do
    printToBuffer (lit "<!DOCTYPE " ++ [0])
    printToBuffer (cstr rootid)
    printToBuffer (lit ">" ++ [0])
    pure true

/-- xmlprinter.hpp:235-248 `exitTagContext`. -/
def exitTagContext : M (PrinterTo β) Bool := do
  let s ← M.get
  match s.state with
  | .Content => pure true
  | .Init => fail "printed xml without root element"
  | _ => do
    printChar 62
    enter .Content

/-- A call on the tag stack. -/
def onStack {α : Type} (x : M TagStack α) : M (PrinterTo β) α :=
  M.zoom (·.tagstack) (fun t s => { s with tagstack := t }) x

/-- xmlprinter.hpp:255-264 `printOpenTag`; `limit` is the largest block the allocator grants. -/
def printOpenTag (limit : Nat) (src : List Byte) : M (PrinterTo β) Bool := do
  let r ← exitTagContext
  if r = false then pure false
  else do
    printChar 60
    printToBuffer src
    onStack (TagStack.push limit 64 src)
    enter .TagElement

/-- xmlprinter.hpp:271-282 `printAttribute`. -/
def printAttribute (src : List Byte) : M (PrinterTo β) Bool := do
  let s ← M.get
  if s.state = .TagElement then do
    printChar 32
    printToBuffer src
    printChar 61
    enter .TagAttribute
  else pure false

/-- xmlprinter.hpp:289-302 `printValue`. -/
def printValue (src : List Byte) : M (PrinterTo β) Bool := do
  let s ← M.get
  if s.state = .TagAttribute then do
    printAttributeValue src
    enter .TagElement
  else do
    let r ← exitTagContext
    if r = false then pure false
    else do
      printContent src
      pure true

/-- xmlprinter.hpp:333-338 the end of `printCloseTag`. -/
def closed : M (PrinterTo β) Bool := do
  onStack TagStack.pop
  let s ← M.get
  if s.tagstack.empty then do
    printChar 10
    pure true
  else pure true

/-- xmlprinter.hpp:307-339 `printCloseTag`. -/
def printCloseTag : M (PrinterTo β) Bool := do
  let t ← onStack TagStack.top
  match t with
  | none => pure false
  | some [] => pure false
  | some name => do
    let s ← M.get
    match s.state with
    | .TagElement => do
      printChar 47
      printChar 62
      M.modify fun s => { s with state := .Content }
      closed
    | .Content => do
      printChar 60
      printChar 47
      printToBuffer name
      printChar 62
      closed
    | _ => pure false

/-- Make a call; those without result count as successful. -/
def call (limit : Nat) : Spec.PCall → M (PrinterTo β) Bool
  | .header e s => printHeader e s
  | .doctype r p s => printDoctype r p s
  | .exit => exitTagContext
  | .open_ n => printOpenTag limit n
  | .attr n => printAttribute n
  | .value v => printValue v
  | .close => printCloseTag
  | .reset b => do M.modify (reset b); pure true
  | .copy mem => do M.modify (copy mem); pure true

/-- Make calls and collect their results. -/
def calls (limit : Nat) : List Spec.PCall → M (PrinterTo β) (List Bool)
  | [] => pure []
  | c :: cs => do
    let r ← call limit c
    let rs ← calls limit cs
    pure (r :: rs)

end Printer

end TW
