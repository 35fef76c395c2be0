import Verif.Model.Basic

/-!
# Exception texts
-/

namespace TW

/-- exception.hpp:24-43: the enumeration value of a cause. -/
def Cause.toNat : Cause → Nat
  | .Unknown => 0 | .DimOutOfRange => 1 | .StateNumbersNotAscending => 2
  | .InvalidParamState => 3 | .InvalidParamChar => 4 | .DuplicateStateTransition => 5
  | .InvalidState => 6 | .IllegalParam => 7 | .IllegalAttributeName => 8 | .OutOfMem => 9
  | .ArrayBoundsReadWrite => 10 | .NotAllowedOperation => 11 | .FileReadError => 12
  | .IllegalXmlHeader => 13 | .InvalidTagOffset => 14 | .CorruptTagStack => 15
  | .CodePageIndexNotSupported => 16

/-- exception.hpp:74-80 `nameCause`: 17 cells, 16 initialisers since the comma
between "NotAllowedOperation" and "FileReadError" is missing and the two literals
are concatenated; the last cell is the null pointer (`none`). -/
def nameCause : List (Option String) :=
  [some "Unknown", some "DimOutOfRange", some "StateNumbersNotAscending",
   some "InvalidParamState", some "InvalidParamChar", some "DuplicateStateTransition",
   some "InvalidState", some "IllegalParam", some "IllegalAttributeName", some "OutOfMem",
   some "ArrayBoundsReadWrite", some ("NotAllowedOperation" ++ "FileReadError"),
   some "IllegalXmlHeader", some "InvalidTagOffset", some "CorruptTagStack",
   some "CodePageIndexNotSupported", none]

/-- exception.hpp:71-82 `what()`. The outer `none` is an access outside of the array. -/
def what (c : Cause) : Option (Option String) := nameCause[c.toNat]?

end TW
