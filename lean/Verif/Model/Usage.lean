import Verif.Model.Session

/-!
# All ways to use the scanner

The scanner objects a program can get by calls of `nextItem`, `getError`, `setSource` and
`putInput` in any order, where a call of `nextItem` that was left with the end of message
signal is repeated with the same mask.
-/

namespace TW.Scanner

/-- The call pending in the state `p` (none, or an interrupted one with the given mask) may be
continued with the mask. -/
def Callable (mask : Nat) (p : Option Nat) : Prop := p = none ∨ p = some mask

/-- The scanner `s` is the result of using the scanner `s0`; `p` is the mask of the call of
`nextItem` that was left by an end of message signal, if there is one. -/
inductive Used (s0 : Scanner (TextScanner SrcIt)) : Option Nat → Scanner (TextScanner SrcIt) → Prop
  | init : Used s0 none s0
  /-- `nextItem` (xmlscanner.hpp:1097) returns an item. -/
  | item {p s n mask r s'} : Used s0 p s → Callable mask p → nextItem n mask s = (.ok r, s') →
      Used s0 none s'
  /-- `nextItem` is left by the end of message signal. -/
  | left {p s n mask s'} : Used s0 p s → Callable mask p → nextItem n mask s = (.stop .eom, s') →
      Used s0 (some mask) s'
  /-- `setSource` or `putInput`, even if the previous chunk is not used up. -/
  | feed {p s} (fresh : Bool) (chunk : List Byte) (eom : Bool) : Used s0 p s →
      Used s0 p (feed fresh chunk eom s)
  /-- `getError` (xmlscanner.hpp:1074). -/
  | getError {p s} : Used s0 p s → Used s0 p (getError s).2

end TW.Scanner
