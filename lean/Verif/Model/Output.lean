import Verif.Model.XMLPrinter
import Verif.Model.StaticBuffer

/-!
# Output buffers of the printer other than strings

`StaticBuffer`, `OstreamOutput` on a `std::ostream`, and calls with different buffers.
-/

namespace TW

/-- staticbuffer.hpp:71-81 `push_back`. -/
instance : OutBuffer SBuf := ⟨SBuf.push_back⟩

/-- A `std::ostream` as far as `operator<<` for a character uses it (modelled by its specification, without
exceptions): the bytes written, the number of bytes the device still takes (`none` if there is no bound), the state
`good()`, and the format: field width, fill character and whether the filling comes behind the character. -/
structure OStream where
  written : List Byte
  room : Option Nat
  good : Bool
  width : Nat
  fill : Byte
  left : Bool
  deriving DecidableEq, Repr

namespace OStream

/-- Write bytes to the device; if it does not take all of them, the state is bad afterwards. -/
def write (bs : List Byte) (s : OStream) : OStream :=
  match s.room with
  | none => { s with written := s.written ++ bs }
  | some k => { s with written := s.written ++ bs.take k, room := some (k - bs.length),
                       good := s.good && decide (bs.length ≤ k) }

/-- `operator<<( std::ostream&, char)`: nothing if the state is not good, else the character filled up to the
width, which is reset. -/
def put (c : Byte) (s : OStream) : OStream :=
  if s.good then
    let pad := List.replicate (s.width - 1) s.fill
    { s.write (if s.left then c :: pad else pad ++ [c]) with width := 0 }
  else s

end OStream

/-- ostreamoutput.hpp:36-39 `OstreamOutput::push_back`. -/
instance : OutBuffer OStream := ⟨fun c => M.modify (OStream.put c)⟩

/-- ostreamoutput.hpp:44-51 `OstreamOutput::append`: the loop over the characters. -/
def OStream.append (s : OStream) : List Byte → OStream
  | [] => s
  | c :: cs => OStream.append (s.put c) cs

/-- A buffer with a `push_back` that throws when `room` bytes were taken: an `OstreamOutput` on a stream without a field
width that has `exceptions` switched on, or a container that gets no more memory. The printer catches no
exceptions, so `cause` stands for any exception. -/
structure Throwing where
  data : List Byte
  room : Nat
  cause : Cause
  deriving DecidableEq, Repr

instance : OutBuffer Throwing :=
  ⟨fun c b => if b.room = 0 then (.stop (.throw b.cause), b) else (.ok (), { b with data := b.data ++ [c], room := b.room - 1 })⟩

namespace Printer

variable {β γ : Type}

/-- The printer with another buffer. -/
def _root_.TW.PrinterTo.withBuf (p : PrinterTo β) (b : γ) : PrinterTo γ :=
  { state := p.state, tagstack := p.tagstack, app := p.app, out := p.out, lasterror := p.lasterror, buf := b }

variable [OutBuffer β]

/-- A call with the buffer number `i` as argument. -/
def callTo (limit i : Nat) (c : Spec.PCall) : M (PrinterTo (Nat → β)) Bool := fun p =>
  match call limit c (p.withBuf (p.buf i)) with
  | (r, q) => (r, q.withBuf fun j => if j = i then q.buf else p.buf j)

/-- Calls, each with the number of the buffer. -/
def callsTo (limit : Nat) : List (Nat × Spec.PCall) → M (PrinterTo (Nat → β)) (List Bool)
  | [] => pure []
  | (i, c) :: cs => do
    let r ← callTo limit i c
    let rs ← callsTo limit cs
    pure (r :: rs)

end Printer

end TW
