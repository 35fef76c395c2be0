import Verif.Model.Iter

/-!
# Copies of a stream iterator

The copy constructor of `IStreamIterator` (istreamiterator.hpp:118-123) copies the buffer and the position in it, and the
pointer to the stream: both iterators read from the same stream.
-/

namespace TW

/-- An iterator and its copy, and the reads the stream will answer, which belong to both. -/
structure Twins where
  input : List ReadEvent
  orig : IStreamIt
  copy : IStreamIt
  deriving DecidableEq, Repr

/-- istreamiterator.hpp:118-123 copy constructor. Only the bytes that were read are copied, which are all that `buf`
has in the model. -/
def Twins.mk' (it : IStreamIt) : Twins :=
  { input := it.input, orig := it,
    copy := { input := it.input, bufsize := it.bufsize, buf := it.buf, readpos := it.readpos, abspos := it.abspos } }

/-- `operator++` of the original (`false`) or of the copy (`true`): the stream is the one both have. -/
def Twins.incr (which : Bool) : M Twins Unit := fun t =>
  match which with
  | false =>
    match IStreamIt.incr { t.orig with input := t.input } with
    | (r, it) => (r, { t with input := it.input, orig := it })
  | true =>
    match IStreamIt.incr { t.copy with input := t.input } with
    | (r, it) => (r, { t with input := it.input, copy := it })

/-- Increments in the order given. -/
def Twins.run : List Bool → M Twins Unit
  | [] => pure ()
  | w :: ws => do
    Twins.incr w
    Twins.run ws

end TW
