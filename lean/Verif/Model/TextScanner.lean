import Verif.Model.Charset

/-!
# TextScanner
-/

namespace TW

/-- textscanner.hpp:71-77. `cur` is kept as unsigned byte (255 for −1); the
character buffer, `state` and `input` are the component `cb`. -/
structure TextScanner (ι : Type) where
  start : ι
  cb : CB ι
  val : UChar
  cur : Byte
  charset : Enc

namespace TextScanner

variable {ι : Type} [Iter ι]

/-- textscanner.hpp:118-122 constructor. -/
def mk' (e : Enc) (it : ι) : TextScanner ι :=
  { start := it
    cb := { buf := List.replicate 8 0, bufpos := 0, itr := it }
    val := 0, cur := 0, charset := e }

/-- textscanner.hpp:146-150 `setSource`. -/
def setSource (it : ι) : M (TextScanner ι) Unit :=
  M.modify fun t => { t with start := it, cb := { t.cb with itr := it } }

/-- textscanner.hpp:154-157 `getPosition` (`size_t` subtraction). -/
def getPosition (t : TextScanner ι) : Nat :=
  (Iter.position t.start t.cb.itr + 2 ^ 64 - t.cb.bufpos) % 2 ^ 64

/-- Run a character set function on the character buffer. -/
def onCB {α : Type} (x : Enc → M (CB ι) α) : M (TextScanner ι) α := fun t =>
  match x t.charset t.cb with
  | (r, cb) => (r, { t with cb })

/-- textscanner.hpp:161-168 `chr`. -/
def chr : M (TextScanner ι) UChar := do
  let t ← M.get
  if t.val = 0 then do
    let v ← onCB Enc.value
    M.modify fun t => { t with val := v }
    pure v
  else pure t.val

/-- textscanner.hpp:171-174 `getcur`. -/
def getcur : M (TextScanner ι) Unit := do
  let c ← onCB Enc.asciichar
  M.modify fun t => { t with cur := c }

/-- textscanner.hpp:192-214 `copychar`; the result is the list of bytes appended
to the output. For different character set classes the scanner appends the
encoding of `chr()` instead (xmlscanner.hpp copychar for different types), which
is the same as the else branch here. -/
def copychar (out : Enc) : M (TextScanner ι) (List Byte) := do
  let t ← M.get
  if t.charset = out then do
    onCB Enc.fetchbytes
    let t ← M.get
    pure (t.cb.buf.take t.cb.bufpos)
  else do
    let c ← chr
    pure (out.print c)

/-- textscanner.hpp:218-223 `control`. -/
def control : M (TextScanner ι) Cc := do
  getcur
  let t ← M.get
  pure (controlCharMap t.cur)

/-- textscanner.hpp:227-231 `ascii`; `cur >= 0` as signed char is `cur < 128`. -/
def ascii : M (TextScanner ι) Byte := do
  getcur
  let t ← M.get
  pure (if t.cur < 128 then t.cur else 0)

/-- textscanner.hpp:235-242 `skip`. -/
def skip : M (TextScanner ι) Unit := do
  onCB Enc.skip
  M.modify fun t => { t with cb := { t.cb with bufpos := 0 }, cur := 0, val := 0 }

end TextScanner

end TW
