import Verif.Model.XMLScanner

/-!
# Programs that use the scanner

Loops of the kind found in the examples and tests: call `nextItem` again and again and
look at the item; when a chunk is used up provide the next one and call again.
-/

namespace TW

/-- What a program sees of an item: its type, its content (`getItem`), the error code
(`getError`) and, if asked for, its position (`getTokenPosition`). -/
structure Obs where
  type : ElementType
  item : List Byte
  error : Err
  pos : Option Nat
  deriving DecidableEq, Repr

namespace Scanner

variable {ρ : Type} [Reader ρ]

/-- Look at the item of type `r`. -/
def observe (showPos : Bool) (r : ElementType) (s : Scanner ρ) : Obs :=
  { type := r, item := s.out, error := s.error, pos := if showPos then some s.tokenpos else none }

/-- Call `getError`, or not. -/
def clearIf (c : Bool) : M (Scanner ρ) Unit := fun s => if c then (.ok (), (getError s).2) else (.ok (), s)

/-- A sequence of calls of `nextItem`. For each call the element mask, and whether the
error is cleared afterwards with `getError`. -/
def session (n : Nat) (showPos : Bool) : List (Nat × Bool) → M (Scanner ρ) (List Obs)
  | [] => pure []
  | (mask, clear) :: cs => do
    let r ← nextItem n mask
    let s ← M.get
    clearIf clear
    let os ← session n showPos cs
    pure (observe showPos r s :: os)

/-- The scanner `s` is the result of a sequence of calls on the scanner `s0`. -/
def Reached (s0 s : Scanner ρ) : Prop :=
  ∃ n showPos calls obs, session n showPos calls s0 = (.ok obs, s)

/-- Provide the next chunk: with `setSource` (xmlscanner.hpp:1031, textscanner.hpp:146)
and a new iterator as in examples/XMLScanner_chunkwise.cpp:18 if `fresh`, else with
`getIterator().putInput` (sourceiterator.hpp:97). -/
def feed (fresh : Bool) (chunk : List Byte) (eom : Bool) (s : Scanner (TextScanner SrcIt)) :
    Scanner (TextScanner SrcIt) :=
  if fresh then
    { s with src := { s.src with start := SrcIt.mk' chunk eom,
                                 cb := { s.src.cb with itr := SrcIt.mk' chunk eom } } }
  else { s with src := { s.src with cb := { s.src.cb with itr := s.src.cb.itr.putInput chunk eom } } }

/-- `nextItem` on a source fed with chunks: at the end of a chunk the next one is
provided and `nextItem` is called again. The last chunk has no end of message address.
The result is the item and the chunks left. -/
def nextFed (n : Nat) (fresh : Bool) (mask : Nat) :
    List (List Byte) → M (Scanner (TextScanner SrcIt)) (ElementType × List (List Byte))
  | [] => fun s => match nextItem n mask s with
    | (.ok r, s') => (.ok (r, []), s')
    | (.stop er, s') => (.stop er, s')
  | c :: cs => fun s => match nextItem n mask s with
    | (.ok r, s') => (.ok (r, c :: cs), s')
    | (.stop .eom, s') => nextFed n fresh mask cs (feed fresh c (!cs.isEmpty) s')
    | (.stop er, s') => (.stop er, s')

/-- `session` on a source fed with chunks. -/
def sessionFed (n : Nat) (fresh showPos : Bool) :
    List (Nat × Bool) → List (List Byte) → M (Scanner (TextScanner SrcIt)) (List Obs)
  | [], _ => pure []
  | (mask, clear) :: cs, chunks => do
    let (r, chunks) ← nextFed n fresh mask chunks
    let s ← M.get
    clearIf clear
    let os ← sessionFed n fresh showPos cs chunks
    pure (observe showPos r s :: os)

end Scanner

section

variable (e output : Enc) (em : Option (List (Nat × UChar))) (addr : Nat)

/-- The scanner with the whole document. -/
def oneScanner (doc : List Byte) : Scanner (TextScanner SrcIt) :=
  Scanner.mk' (TextScanner.mk' e (SrcIt.mk' doc false)) output em addr

/-- The scanner with the first chunk. -/
def fedScanner (c : List Byte) (cs : List (List Byte)) : Scanner (TextScanner SrcIt) :=
  Scanner.mk' (TextScanner.mk' e (SrcIt.mk' c (!cs.isEmpty))) output em addr

end

end TW
