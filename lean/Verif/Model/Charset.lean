import Verif.Model.Iter
import Verif.Model.CodePages

/-!
# Character set encodings

The member functions of the character set classes operate on a character buffer
`char buf[8]`, a fill count `bufpos` and the source iterator (see
textscanner.hpp:71-76). These three are the state `CB`.
-/

namespace TW

/-- The character set classes: charset_utf8.hpp `UTF8`, charset_utf16.hpp
`UTF16LE/BE`, charset_ucs.hpp `UCS2LE/BE`, `UCS4LE/BE`, charset_isolatin.hpp
`IsoLatin` with its code page index. `be` is true for big endian. -/
inductive Enc where
  | utf8
  | utf16 (be : Bool)
  | ucs2 (be : Bool)
  | ucs4 (be : Bool)
  | isolatin (page : Nat)
  deriving DecidableEq, Repr

/-- Character buffer, fill count and source iterator. -/
structure CB (ι : Type) where
  buf : List Byte
  bufpos : Nat
  itr : ι

namespace CB

variable {ι : Type} [Iter ι]

/-- `*itr` -/
def deref : M (CB ι) Byte := fun c =>
  match Iter.deref c.itr with
  | .ok b => (.ok b, c)
  | .stop e => (.stop e, c)

/-- `++itr` -/
def incr : M (CB ι) Unit := fun c =>
  match Iter.incr c.itr with
  | (r, it) => (r, { c with itr := it })

/-- `buf[i] = b`; the array has 8 cells (textscanner.hpp:73). -/
def store (i : Nat) (b : Byte) : M (CB ι) Unit := fun c =>
  if i < c.buf.length then (.ok (), { c with buf := c.buf.set i b }) else (.stop .ub, c)

/-- `(unsigned char)buf[i]` -/
def load (i : Nat) : M (CB ι) Byte := fun c =>
  match c.buf[i]? with
  | some b => (.ok b, c)
  | none => (.stop .ub, c)

/-- `++bufpos` -/
def bump : M (CB ι) Unit := M.modify fun c => { c with bufpos := c.bufpos + 1 }

/-- `bufpos` -/
def bufposM : M (CB ι) Nat := fun c => (.ok c.bufpos, c)

/-- `buf[bufpos] = *itr; ++itr; ++bufpos;` (e.g. charset_utf8.hpp:107-109). -/
def fetch1 : M (CB ι) Unit := do
  let b ← deref
  let p ← bufposM
  store p b
  incr
  bump

/-- `n` iterations of a fetch loop (e.g. charset_utf8.hpp:125-129). -/
def fetchN : Nat → M (CB ι) Unit
  | 0 => pure ()
  | n + 1 => do fetch1; fetchN n

/-- `n` iterations of `for (;bufpos < bufsize; ++bufpos) ++itr;`
(charset_utf8.hpp:95-98). -/
def skipN : Nat → M (CB ι) Unit
  | 0 => pure ()
  | n + 1 => do incr; bump; skipN n

/-- `for (;bufpos < bufsize; ++bufpos) {buf[bufpos] = *itr; ++itr;}` -/
def fetchUpTo (bufsize : Nat) : M (CB ι) Unit := do
  let p ← bufposM
  fetchN (bufsize - p)

/-- `for (;bufpos < bufsize; ++bufpos) ++itr;` -/
def skipUpTo (bufsize : Nat) : M (CB ι) Unit := do
  let p ← bufposM
  skipN (bufsize - p)

end CB

/-- charset_utf8.hpp:57-72 `CharLengthTab`. -/
def charLengthTab : CharMap Nat :=
  ((((((((CharMap.init 0)
    |>.range 0x00 0x7F 1)
    |>.range 0xC0 0xDF 2)
    |>.range 0xE0 0xEF 3)
    |>.range 0xF0 0xF7 4)
    |>.range 0xF8 0xFB 5)
    |>.range 0xFC 0xFD 6)
    |>.range 0xFE 0xFE 7)
    |>.range 0xFF 0xFF 8

/-- Index of the most significant byte: charset_utf16.hpp:38, charset_ucs.hpp:33. -/
def msb (be : Bool) : Nat := if be then 0 else 1
/-- Index of the least significant byte: charset_utf16.hpp:37, charset_ucs.hpp:32. -/
def lsb (be : Bool) : Nat := if be then 1 else 0

namespace Enc

variable {ι : Type} [Iter ι]

open CB

/-- charset_utf8.hpp:107-111 and 122-126: fetch the first byte if there is none. -/
def fetchFirst : M (CB ι) Unit := do
  let p ← bufposM
  if p = 0 then fetch1 else pure ()

/-- charset_utf8.hpp:79-88 `size`. -/
def utf8Size : M (CB ι) Nat := do
  fetchFirst
  let b ← load 0
  pure (charLengthTab b)

/-- charset_utf8.hpp:116-130 `fetchbytes`. -/
def utf8Fetchbytes : M (CB ι) Unit := do
  fetchFirst
  let n ← utf8Size
  fetchUpTo n

/-- charset_utf16.hpp:55-69, charset_ucs.hpp:54-68 `fetchbytes`. -/
def fetch2 : M (CB ι) Unit := do
  let p ← bufposM
  if p < 2 then do
    if p < 1 then fetch1 else pure ()
    fetch1
  else pure ()

/-- charset_utf16.hpp:76-89 `size`. `rt - 0xD8` is unsigned 32 bit arithmetic. -/
def utf16Size (be : Bool) : M (CB ι) Nat := do
  fetch2
  let rt ← load (msb be)
  if 0x03 < (rt + 2 ^ 32 - 0xD8) % 2 ^ 32 then pure 2 else pure 4

/-- `fetchbytes` of each character set: charset_utf8.hpp:116-130,
charset_utf16.hpp:55-69, charset_ucs.hpp:54-68, charset_ucs.hpp:147-154,
charset_isolatin.hpp:49-57. -/
def fetchbytes : Enc → M (CB ι) Unit
  | .utf8 => utf8Fetchbytes
  | .utf16 _ => fetch2
  | .ucs2 _ => fetch2
  | .ucs4 _ => fetchUpTo 4
  | .isolatin _ => fetchFirst

/-- The loop charset_utf8.hpp:146-154 over the continuation bytes, with the value
so far. `res<<6` is a 32 bit shift. -/
def utf8Cont : List Byte → UChar → UChar
  | [], res => res
  | xx :: rest, res =>
    let res := ((res <<< 6) % 2 ^ 32) ||| (xx &&& 0x3F)
    if xx &&& 0xC0 ≠ 0x80 then 0x7FFFFFFF else utf8Cont rest res

/-- charset_utf8.hpp:134-156 `value`, after `fetchbytes`, on the fetched bytes
`buf[0..bufpos)`. -/
def utf8Decode (bytes : List Byte) : UChar :=
  match bytes with
  | [] => 0
  | b0 :: rest =>
    if 127 < b0 then
      match rest with
      | [] => 0x7FFFFFFF
      | _ :: _ => utf8Cont rest (b0 &&& (0x1F >>> (rest.length - 1)))
    else b0

/-- charset_utf16.hpp:128-133: combine two units. `lo - 0xDC` at line 131 is a
signed `int` comparison as `unsigned short` is promoted. -/
def utf16Pair (rt loMsb loLsb : Nat) : UChar :=
  let rt := (rt + 2 ^ 32 - 0xD800) % 2 ^ 32
  let rt := (rt * 0x400) % 2 ^ 32
  if (loMsb : Int) - 0xDC > 0x03 then 0xFFFF
  else
    let lo := ((loMsb <<< 8) + loLsb) % 2 ^ 16
    (rt + lo + 2 ^ 32 - 0xDC00 + 0x10000) % 2 ^ 32

/-- charset_utf16.hpp:112-136 `value_impl`. -/
def utf16Value (be : Bool) : M (CB ι) UChar := do
  let bufsize ← utf16Size be
  let hi ← load (msb be)
  let lo ← load (lsb be)
  let rt := ((hi <<< 8) + lo) % 2 ^ 32
  if bufsize = 4 then do
    fetchUpTo bufsize
    let m ← load (2 + msb be)
    let l ← load (2 + lsb be)
    pure (utf16Pair rt m l)
  else pure rt

/-- `value`: charset_utf8.hpp:134-156, charset_utf16.hpp:138-142,
charset_ucs.hpp:71-83, charset_ucs.hpp:157-165, charset_isolatin.hpp:68-73. -/
def value : Enc → M (CB ι) UChar
  | .utf8 => do
    utf8Fetchbytes
    let c ← M.get
    pure (utf8Decode (c.buf.take c.bufpos))
  | .utf16 be => utf16Value be
  | .ucs2 be => do
    fetch2
    let m ← load (msb be)
    let l ← load (lsb be)
    pure (((m <<< 8) + l) % 2 ^ 32)
  | .ucs4 be => do
    fetchUpTo 4
    let b3 ← load (if be then 0 else 3)
    let b2 ← load (if be then 1 else 2)
    let b1 ← load (if be then 2 else 1)
    let b0 ← load (if be then 3 else 0)
    let res := b3
    let res := ((res <<< 8) + b2) % 2 ^ 32
    let res := ((res <<< 8) + b1) % 2 ^ 32
    pure (((res <<< 8) + b0) % 2 ^ 32)
  | .isolatin page => do
    fetchFirst
    let b ← load 0
    pure (ucharcode page b)

/-- `(ch > 127)?-1:(char)ch` as unsigned byte (−1 is 255). -/
def toCur (ch : UChar) : Byte := if 127 < ch then 255 else ch

/-- `asciichar`: charset_utf8.hpp:103-112, charset_utf16.hpp:104-108,
charset_ucs.hpp:87-91, charset_ucs.hpp:179-183, charset_isolatin.hpp:61-65.
The `signed char` result is given as unsigned byte, −1 is 255. -/
def asciichar : Enc → M (CB ι) Byte
  | .utf8 => do fetchFirst; let b ← load 0; pure (toCur b)
  | .isolatin _ => do fetchFirst; let b ← load 0; pure (toCur b)
  | .utf16 be => do let ch ← utf16Value be; pure (toCur ch)
  | .ucs2 be => do let ch ← value (.ucs2 be); pure (toCur ch)
  | .ucs4 be => do let ch ← value (.ucs4 be); pure (toCur ch)

/-- `skip`: charset_utf8.hpp:92-99, charset_utf16.hpp:93-100,
charset_ucs.hpp:44-50, charset_ucs.hpp:169-175, charset_isolatin.hpp:38-45. -/
def skip : Enc → M (CB ι) Unit
  | .utf8 => do let n ← utf8Size; skipUpTo n
  | .utf16 be => do let n ← utf16Size be; skipUpTo n
  | .ucs2 _ => skipUpTo 2
  | .ucs4 _ => skipUpTo 4
  | .isolatin _ => skipUpTo 1

/-! ## Printing -/

/-- charset_utf8.hpp:170-173: number of continuation bytes `pp` for `chr > 127`. -/
def utf8Pp (chr : UChar) : Nat :=
  if chr < (1 <<< 6) <<< 5 then 1
  else if chr < (1 <<< 6) <<< 10 then 2
  else if chr < (1 <<< 6) <<< 15 then 3
  else if chr < (1 <<< 6) <<< 20 then 4
  else 5

/-- charset_utf8.hpp:179-182: `k` continuation bytes, the last with shift 0. -/
def utf8Tail (chr : UChar) : Nat → List Byte
  | 0 => []
  | k + 1 => (((chr >>> (6 * k)) &&& 0x3F) ||| 0x80) :: utf8Tail chr k

/-- charset_utf8.hpp:160-183 `print`. `~HB >> 1` at line 178 is `int` arithmetic:
all bits set but those of `HB` shifted right by one, so restricted to the low
byte it is `(255 - HB) / 2 + 128`. -/
def utf8Print (chr : UChar) : List Byte :=
  if chr ≤ 127 then [chr]
  else
    let pp := utf8Pp chr
    let rt := pp + 1
    let hb := (0xFF <<< (8 - rt)) % 256
    let shf := pp * 6
    ((((chr >>> shf) % 256) &&& ((255 - hb) / 2 + 128)) ||| hb) :: utf8Tail chr pp

/-- Two bytes of a 16 bit unit: charset_utf16.hpp:156-157, charset_ucs.hpp:111-112. -/
def unit2 (be : Bool) (u : Nat) : List Byte :=
  if be then [(u >>> 8) % 256, u % 256] else [u % 256, (u >>> 8) % 256]

/-- charset_utf16.hpp:146-181 `print`. `ch - 0xD800` is unsigned 32 bit. -/
def utf16Print (be : Bool) (ch : UChar) : List Byte :=
  if ch ≤ 0xFFFF then
    if (ch + 2 ^ 32 - 0xD800) % 2 ^ 32 < 0x400 then
      (encodeStr ch).flatMap (unit2 be)
    else unit2 be ch
  else if ch ≤ 0x10FFFF then
    let c := ch - 0x10000
    unit2 be ((c / 0x400 + 0xD800) % 2 ^ 16) ++ unit2 be ((c % 0x400 + 0xDC00) % 2 ^ 16)
  else (encodeStr ch).flatMap (unit2 be)

/-- charset_ucs.hpp:95-114 `print`. -/
def ucs2Print (be : Bool) (chr : UChar) : List Byte :=
  if 0xFFFF < chr then (encodeStr chr).flatMap (unit2 be) else unit2 be chr

/-- charset_ucs.hpp:187-193 `print`. -/
def ucs4Print (be : Bool) (chr : UChar) : List Byte :=
  if be then [(chr >>> 24) % 256, (chr >>> 16) % 256, (chr >>> 8) % 256, chr % 256]
  else [chr % 256, (chr >>> 8) % 256, (chr >>> 16) % 256, (chr >>> 24) % 256]

/-- charset_isolatin.hpp:77-91 `print`. -/
def isolatinPrint (page : Nat) (chr : UChar) : List Byte :=
  if invcode page chr = 0 then encodeStr chr else [invcode page chr]

/-- `print` of each character set. -/
def print : Enc → UChar → List Byte
  | .utf8, c => utf8Print c
  | .utf16 be, c => utf16Print be c
  | .ucs2 be, c => ucs2Print be c
  | .ucs4 be, c => ucs4Print be c
  | .isolatin p, c => isolatinPrint p c

end Enc

end TW
