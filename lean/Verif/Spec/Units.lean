import Verif.Model.Charset

/-!
# Specification: how a byte stream is divided into characters

A text is an infinite byte stream `f` (null bytes behind its end). For each
character set these functions give, for a character that starts at offset `k`,
the number of bytes it occupies, its code, and its ASCII value. They are written
with plain arithmetic on the stream and share nothing with the model of the
scanner.
-/

namespace TW.Spec

/-- Bytes of a finite text followed by null bytes. -/
def strm (bs : List Byte) (i : Nat) : Byte := bs.getD i 0

/-- Number of bytes announced by a UTF-8 lead byte; a byte that cannot start a
sequence counts as one. -/
def utf8Len (b : Byte) : Nat :=
  if b < 0xC0 then 1 else if b < 0xE0 then 2 else if b < 0xF0 then 3 else if b < 0xF8 then 4
  else if b < 0xFC then 5 else if b < 0xFE then 6 else if b < 0xFF then 7 else 8

/-- Value of the payload bits of continuation bytes, most significant first, in
32 bit arithmetic; `none` if one of the bytes is no continuation byte. -/
def contVal : List Byte → Nat → Option Nat
  | [], v => some v
  | b :: bs, v => if 0x80 ≤ b ∧ b < 0xC0 then contVal bs ((v * 64 + (b - 0x80)) % 2 ^ 32) else none

/-- The bytes `f k, ..., f (k+n-1)`. -/
def slice (f : Nat → Byte) (k n : Nat) : List Byte := (List.range n).map fun i => f (k + i)

/-- The code of the UTF-8 character at `k`; 0x7FFFFFFF marks an error. -/
def utf8Val (f : Nat → Byte) (k : Nat) : UChar :=
  let b := f k
  let n := utf8Len b
  if b < 0x80 then b
  else if n = 1 then 0x7FFFFFFF
  else (contVal (slice f (k + 1) (n - 1)) (b % 2 ^ (7 - n))).getD 0x7FFFFFFF

/-- A 16 bit unit. -/
def unit16 (be : Bool) (f : Nat → Byte) (k : Nat) : Nat :=
  if be then f k * 256 + f (k + 1) else f (k + 1) * 256 + f k

/-- Number of bytes of the character at `k`. -/
def ulen (e : Enc) (f : Nat → Byte) (k : Nat) : Nat :=
  match e with
  | .utf8 => utf8Len (f k)
  | .utf16 be => if 0xD800 ≤ unit16 be f k ∧ unit16 be f k < 0xDC00 then 4 else 2
  | .ucs2 _ => 2
  | .ucs4 _ => 4
  | .isolatin _ => 1

/-- Code of the character at `k`. For UTF-16 the second unit `v` of a pair should
be in DC00..DFFF; a unit above yields 0xFFFF, a unit below is not detected. -/
def uval (e : Enc) (f : Nat → Byte) (k : Nat) : UChar :=
  match e with
  | .utf8 => utf8Val f k
  | .utf16 be =>
    let u := unit16 be f k
    let v := unit16 be f (k + 2)
    if 0xD800 ≤ u ∧ u < 0xDC00 then
      if 0xE000 ≤ v then 0xFFFF else (u - 0xD800) * 0x400 + v + 0x10000 - 0xDC00
    else u
  | .ucs2 be => unit16 be f k
  | .ucs4 be =>
    if be then ((f k * 256 + f (k + 1)) * 256 + f (k + 2)) * 256 + f (k + 3)
    else ((f (k + 3) * 256 + f (k + 2)) * 256 + f (k + 1)) * 256 + f k
  | .isolatin page => if f k < 128 then f k else (codePage (page - 1)).getD (f k - 128) 0

/-- The byte the scanner classifies: the code if it is ASCII, else 255. -/
def uasc (e : Enc) (f : Nat → Byte) (k : Nat) : Byte :=
  match e with
  | .utf8 | .isolatin _ => if f k < 128 then f k else 255
  | _ => if uval e f k < 128 then uval e f k else 255

/-- Offset of the character number `n` when the first starts at `k`. -/
def offs (e : Enc) (f : Nat → Byte) (k : Nat) : Nat → Nat
  | 0 => k
  | n + 1 => offs e f k n + ulen e f (offs e f k n)

end TW.Spec
