import Verif.Model.Basic

/-!
# StaticBuffer and the numeric entity encoder
-/

namespace TW

/-- staticbuffer.hpp:143-148. `ar` is the memory block `m_ar`. Its real length is
`ar.length`; `size` is the field `m_size`. -/
structure SBuf where
  pos : Nat
  size : Nat
  ar : List Byte
  overflow : Bool
  deriving DecidableEq, Repr

namespace SBuf

/-- staticbuffer.hpp:28-33 constructor allocating `n` zeroed bytes. -/
def alloc (n : Nat) : SBuf := { pos := 0, size := n, ar := List.replicate n 0, overflow := false }

/-- staticbuffer.hpp:36-41 constructor on foreign memory. -/
def foreign (p : List Byte) (n : Nat) (i : Nat := 0) : SBuf :=
  { pos := i, size := n, ar := p, overflow := false }

/-- staticbuffer.hpp:63-67. -/
def clear : M SBuf Unit := M.modify fun b => { b with pos := 0, overflow := false }

/-- staticbuffer.hpp:71-81. A write outside the memory block is `ub`. -/
def push_back (ch : Byte) : M SBuf Unit := fun b =>
  if b.pos < b.size then
    if b.pos < b.ar.length then
      (.ok (), { b with ar := b.ar.set b.pos ch, pos := b.pos + 1 })
    else (.stop .ub, b)
  else (.ok (), { b with overflow := true })

/-- Overwrite the bytes of `mem` from index `i` on by `cc`
(`memcpy(mem+i, cc, cc.length)`). -/
def writeAt (mem : List Byte) (i : Nat) (cc : List Byte) : List Byte :=
  mem.take i ++ cc ++ mem.drop (i + cc.length)

/-- staticbuffer.hpp:86-95. `m_size - m_pos` and `m_pos+ccsize` are `size_t`
arithmetic. The `memcpy` reading behind `cc` or writing behind the block is `ub`. -/
def append (cc : List Byte) : M SBuf Unit := fun b =>
  let over := decide (b.size < (b.pos + cc.length) % 2 ^ 64)
  let n := if over then (b.size + 2 ^ 64 - b.pos) % 2 ^ 64 else cc.length
  let b := if over then { b with overflow := true } else b
  if n ≤ cc.length ∧ b.pos + n ≤ b.ar.length then
    (.ok (), { b with ar := writeAt b.ar b.pos (cc.take n), pos := b.pos + n })
  else (.stop .ub, b)

/-- The loop at staticbuffer.hpp:117, `k` iterations. -/
def pushN : Nat → Byte → M SBuf Unit
  | 0, _ => pure ()
  | k + 1, c => do push_back c; pushN k c

/-- staticbuffer.hpp:108-119. The loop `while (n>m_pos) push_back(c)` runs
`n - m_pos` times as each call moves `m_pos` by one (`m_pos < n ≤ m_size`). -/
def resize (n : Nat) (c : Byte := 0) : M SBuf Unit := fun b =>
  if n < b.pos then (.ok (), { b with pos := n })
  else
    let n := if b.size < n then b.size else n
    pushN (n - b.pos) c b

/-- staticbuffer.hpp:124-128 `operator[]` and 133-137 `at`. -/
def at_ (ii : Nat) (b : SBuf) : Res Byte :=
  if b.pos < ii then .stop (.throw .DimOutOfRange)
  else match b.ar[ii]? with
    | some x => .ok x
    | none => .stop .ub

/-- staticbuffer.hpp:99,103: the content `ptr()[0..size())`. -/
def content (b : SBuf) : List Byte := b.ar.take b.pos

end SBuf

/-- charset_interface.hpp:31 digits. -/
def hexDigit (d : Nat) : Byte := if d < 10 then 48 + d else 87 + d

/-- charset_interface.hpp:33-39: the digits of `chr`, least significant first
(`bb[0..ii)`). The first argument is the number of free cells of `bb[32]`; a 32
bit number fills at most 8 of them. -/
def hexRev : Nat → Nat → List Byte
  | 0, _ => []
  | k + 1, n => if n = 0 then [] else hexDigit (n % 16) :: hexRev k (n / 16)

/-- The digits of a 32 bit code, least significant first. -/
def hexDigitsRev (n : Nat) : List Byte := hexRev 32 n

/-- Push all bytes in order. -/
def SBuf.pushAll : List Byte → M SBuf Unit
  | [] => pure ()
  | c :: cs => do SBuf.push_back c; SBuf.pushAll cs

/-- charset_interface.hpp:29-50 `Encoder::encode` on a buffer `mem` with
`bufsize` cells. Returns the success flag and the memory afterwards. -/
def encode (chr : UChar) (mem : List Byte) (bufsize : Nat) : Res Bool × List Byte :=
  let run : M SBuf Bool := do
    SBuf.push_back 38            -- '&'
    SBuf.push_back 35            -- '#'
    SBuf.push_back 120           -- 'x'
    SBuf.pushAll (hexDigitsRev chr).reverse
    SBuf.push_back 59            -- ';'
    SBuf.push_back 0
    let b ← M.get
    pure (!b.overflow)
  match run (SBuf.foreign mem bufsize) with
  | (r, b) => (r, b.ar)

/-- The callers of `encode` (charset_utf16.hpp:172-175, charset_ucs.hpp:99-102,
charset_isolatin.hpp:82-85): `char tb[32]`, encode, read up to the null. The
content of the uninitialised `tb` is irrelevant, the model uses zeros. -/
def encodeStr (chr : UChar) : List Byte :=
  (encode chr (List.replicate 32 0) 32).2.takeWhile (· ≠ 0)

end TW
