import Verif.Model.Iter

/-!
# Reading from a standard stream

`StdInputStream` of istreamiterator.hpp:40-90 and, as far as it is used there, `std::istream` with its stream buffer.
-/

namespace TW

/-- A `std::istream`: the bytes its buffer still delivers; what happens behind them, the end of the file or, if `fault`
is set, an exception thrown by the stream buffer with this value of `errno`; the state bits (`failbit`, set together
with one of the others here, is left out). -/
structure StdStream where
  rest : List Byte
  fault : Option Nat
  eof : Bool
  bad : Bool
  deriving DecidableEq, Repr

/-- A stream just opened. -/
def StdStream.opened (bs : List Byte) (fault : Option Nat := none) : StdStream :=
  { rest := bs, fault, eof := false, bad := false }

/-- `std::istream::read` followed by `gcount`, with exceptions switched on for all state bits (istreamiterator.hpp:48):
the bytes stored and counted, and whether an exception is thrown. If the stream buffer throws, nothing is counted. -/
def StdStream.read (n : Nat) (s : StdStream) : (List Byte × Bool) × StdStream :=
  if s.eof ∨ s.bad then (([], true), s)
  else if n ≤ s.rest.length then ((s.rest.take n, false), { s with rest := s.rest.drop n })
  else match s.fault with
    | none => ((s.rest, true), { s with rest := [], eof := true })
    | some _ => (([], true), { s with rest := [], bad := true })

/-- The value of `errno` when a read has failed. -/
def StdStream.errno (s : StdStream) : Nat := s.fault.getD 0

/-- istreamiterator.hpp:88-89 members of `StdInputStream`. -/
structure StdInput where
  stream : StdStream
  errno : Nat
  deriving DecidableEq, Repr

/-- istreamiterator.hpp:44-49 constructor: setting the exceptions throws if the stream is not good. `none` is the exception. -/
def StdInput.mk' (s : StdStream) : Option StdInput := if s.eof ∨ s.bad then none else some { stream := s, errno := 0 }

/-- istreamiterator.hpp:54-80 `read`. -/
def StdInput.read (n : Nat) (i : StdInput) : List Byte × StdInput :=
  match i.stream.read n with
  | ((bs, false), s) => (bs, { stream := s, errno := 0 })
  | ((bs, true), s) => if s.eof then (bs, { stream := s, errno := 0 }) else ([], { stream := s, errno := s.errno })

/-- One read of `IStreamIterator::fillbuf` (istreamiterator.hpp:160-162): the bytes, or failed if `errorcode()`
(istreamiterator.hpp:82-85) is not 0. -/
def StdInput.event (n : Nat) (i : StdInput) : ReadEvent × StdInput :=
  match i.read n with
  | (bs, i') => (if i'.errno = 0 then .data bs else .fail, i')

/-- The results of `m` reads. -/
def StdInput.events (n : Nat) : Nat → StdInput → List ReadEvent
  | 0, _ => []
  | m + 1, i => (i.event n).1 :: StdInput.events n m (i.event n).2

end TW
