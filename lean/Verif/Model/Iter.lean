import Verif.Model.Basic

/-!
# Source iterators

`operator*`, `operator++` and the position of the four iterator types the
scanner is used with (textscanner.hpp:23-60 lists the traits).
-/

namespace TW

/-- The operations the library needs from a source iterator. -/
class Iter (ι : Type) where
  /-- `operator*` -/
  deref : ι → Res Byte
  /-- prefix `operator++` -/
  incr : M ι Unit
  /-- `Traits<Iterator>::getPosition(start, itr)` -/
  position : ι → ι → Nat

/-! ## CStringIterator -/

/-- cstringiterator.hpp:88-90. `m_size` is `src.length` reduced to 32 bit (the
constructors at 42-52 assign a `size_t` to an `unsigned int`). -/
structure CStr where
  src : List Byte
  size : Nat
  pos : Nat
  deriving DecidableEq, Repr

/-- cstringiterator.hpp:49-52 constructor from a string. -/
def CStr.mk' (src : List Byte) : CStr := { src, size := src.length % 2 ^ 32, pos := 0 }

/-- cstringiterator.hpp:63-66 `operator*`. Reading behind the string is `ub`
(cannot happen as `m_size` never exceeds the length). -/
def CStr.deref (it : CStr) : Res Byte :=
  if it.pos < it.size then
    match it.src[it.pos]? with
    | some b => .ok b
    | none => .stop .ub
  else .ok 0

/-- cstringiterator.hpp:69-73 `operator++` on an `unsigned int`. -/
def CStr.incr : M CStr Unit := M.modify fun it => { it with pos := (it.pos + 1) % 2 ^ 32 }

/-- cstringiterator.hpp:79 `pos(i)`. -/
def CStr.setPos (it : CStr) (i : Nat) : CStr := { it with pos := if i < it.size then i else it.size }

/-- cstringiterator.hpp:81-85 `operator-` for two iterators on the same string, with the wrap around of `unsigned int` and
the conversion to a 32 bit `int`. -/
def CStr.minus (a b : CStr) : Int :=
  let d : Nat := (a.pos + 2 ^ 32 - b.pos) % 2 ^ 32
  if d < 2 ^ 31 then (d : Int) else (d : Int) - 2 ^ 32

instance : Iter CStr where
  deref := CStr.deref
  incr := CStr.incr
  -- textscanner.hpp:54-60
  position _ it := it.pos

/-! ## SrcIterator -/

/-- sourceiterator.hpp:123-127. `itr` is `m_itr - m_start`, `chunk` the bytes
from `m_start` to `m_end`, `eom` tells whether `m_eom` is set. -/
structure SrcIt where
  chunk : List Byte
  itr : Nat
  eom : Bool
  abspos : Nat
  deriving DecidableEq, Repr

/-- sourceiterator.hpp:50-55 constructor. -/
def SrcIt.mk' (chunk : List Byte) (eom : Bool) : SrcIt :=
  { chunk, itr := 0, eom, abspos := chunk.length }

/-- sourceiterator.hpp:69-77 `operator*`. -/
def SrcIt.deref (it : SrcIt) : Res Byte :=
  match it.chunk[it.itr]? with
  | some b => .ok b
  | none => if it.eom then .stop .eom else .ok 0

/-- sourceiterator.hpp:80-84 `operator++`. The pointer may be moved behind the
end of the chunk by the code; this is formally undefined for a pointer more than
one behind the array but the code relies on it, and so does the model. -/
def SrcIt.incr : M SrcIt Unit := M.modify fun it => { it with itr := it.itr + 1 }

/-- sourceiterator.hpp:97-103 `putInput`. -/
def SrcIt.putInput (it : SrcIt) (chunk : List Byte) (eom : Bool) : SrcIt :=
  { chunk, itr := 0, eom, abspos := it.abspos + chunk.length }

/-- sourceiterator.hpp:112-115 `position()`: `m_abspos - (m_end - m_itr)`. -/
def SrcIt.position (it : SrcIt) : Nat := it.abspos + it.itr - it.chunk.length

/-- sourceiterator.hpp:107-110 `getPosition()`. -/
def SrcIt.getPosition (it : SrcIt) : Nat :=
  if it.itr ≤ it.chunk.length then it.itr else 0

/-- sourceiterator.hpp:117-120 `endOfChunk()`. -/
def SrcIt.endOfChunk (it : SrcIt) : Bool := it.chunk.length ≤ it.itr

/-- sourceiterator.hpp:87-91 `operator-` for two iterators on the same chunk
(the model has no addresses; iterators on different chunks raise). -/
def SrcIt.minus (a b : SrcIt) : Res Nat :=
  if b.chunk.length ≠ a.chunk.length ∨ a.itr < b.itr then .stop (.throw .IllegalParam)
  else .ok (a.itr - b.itr)

instance : Iter SrcIt where
  deref := SrcIt.deref
  incr := SrcIt.incr
  -- textscanner.hpp:36-42
  position _ it := it.position

/-! ## Raw char pointer -/

/-- A `char*` into the array `mem` (the array includes the terminating null). -/
structure CharPtr where
  mem : List Byte
  pos : Nat
  deriving DecidableEq, Repr

/-- Dereferencing outside of the array is undefined behaviour. -/
def CharPtr.deref (it : CharPtr) : Res Byte :=
  match it.mem[it.pos]? with
  | some b => .ok b
  | none => .stop .ub

/-- A pointer may be moved at most one behind the array. -/
def CharPtr.incr : M CharPtr Unit := fun it =>
  if it.pos < it.mem.length then (.ok (), { it with pos := it.pos + 1 }) else (.stop .ub, it)

instance : Iter CharPtr where
  deref := CharPtr.deref
  incr := CharPtr.incr
  -- textscanner.hpp:27-33
  position start it := it.pos - start.pos

/-! ## IStreamIterator -/

/-- What one call of `IStream::read` does (istreamiterator.hpp:34): it delivers
some bytes, or fails with an error code. -/
inductive ReadEvent where
  | data (bs : List Byte)
  | fail
  deriving DecidableEq, Repr

/-- istreamiterator.hpp:167-172. `input` is the schedule of the future reads of
the stream; when it is exhausted every read delivers 0 bytes (end of file).
`buf` holds `m_readsize` bytes. -/
structure IStreamIt where
  input : List ReadEvent
  bufsize : Nat
  buf : List Byte
  readpos : Nat
  abspos : Nat
  deriving DecidableEq, Repr

/-- istreamiterator.hpp:157-164 `fillbuf`. A read never stores more than the
buffer size (contract of `IStream::read`); the model makes a longer delivery
`ub`. -/
def IStreamIt.fillbuf : M IStreamIt Unit := fun it =>
  let abspos := it.abspos + it.buf.length
  match it.input with
  | [] => (.ok (), { it with abspos, buf := [], readpos := 0 })
  | .fail :: rest =>
      (.stop (.throw .FileReadError), { it with abspos, buf := [], readpos := 0, input := rest })
  | .data bs :: rest =>
      if bs.length ≤ it.bufsize then
        (.ok (), { it with abspos, buf := bs, readpos := 0, input := rest })
      else (.stop .ub, it)

/-- istreamiterator.hpp:109-114 constructor. -/
def IStreamIt.mk' (input : List ReadEvent) (bufsize : Nat) : Res Unit × IStreamIt :=
  IStreamIt.fillbuf { input, bufsize, buf := [], readpos := 0, abspos := 0 }

/-- istreamiterator.hpp:127-130 `operator*`. -/
def IStreamIt.deref (it : IStreamIt) : Res Byte :=
  match it.buf[it.readpos]? with
  | some b => .ok b
  | none => .ok 0

/-- istreamiterator.hpp:133-144 `operator++`. -/
def IStreamIt.incr : M IStreamIt Unit := fun it =>
  if it.buf.length ≤ it.readpos + 1 then IStreamIt.fillbuf it
  else (.ok (), { it with readpos := it.readpos + 1 })

/-- istreamiterator.hpp:151-154 `position()`. -/
def IStreamIt.position (it : IStreamIt) : Nat := it.abspos + it.readpos

/-- istreamiterator.hpp:146-149 `operator-`: the difference of the positions in the two buffers (computed in `size_t`
and converted to a 32 bit `int`, which gives the number as long as it is below 2^31). -/
def IStreamIt.minus (a b : IStreamIt) : Int :=
  let d : Nat := (a.readpos + 2 ^ 64 - b.readpos) % 2 ^ 32
  if d < 2 ^ 31 then (d : Int) else (d : Int) - 2 ^ 32

instance : Iter IStreamIt where
  deref := IStreamIt.deref
  incr := IStreamIt.incr
  -- textscanner.hpp:45-51
  position _ it := it.position

end TW
