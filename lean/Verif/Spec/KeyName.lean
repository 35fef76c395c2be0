import Verif.Model.PathAutomaton
import Verif.Spec.Text

/-!
# The names given to the building interface of path automatons
-/

namespace TW.Spec

/-- The characters of a name: no control characters, no white space, no delimiters of tags. -/
def InName (c : UChar) : Prop := (33 ≤ c ∨ c = 5) ∧ c ∉ ascii "!\"&'/<=>?[]"

instance (c : UChar) : Decidable (InName c) := inferInstanceAs (Decidable (_ ∧ _))

/-- The part of a name that is taken: up to the first character that is none of a name, where `&` counts as one. -/
def taken (cs : List UChar) : List UChar := cs.takeWhile fun c => InName c ∨ c = 38

/-- What is taken for an `&`: the character 0. -/
def unamp (c : UChar) : UChar := if c = 38 then 0 else c

/-- The bytes a name or a value is compared with. -/
def asked (e : Enc) (cs : List UChar) : List Byte := ((taken cs).flatMap fun c => e.print (unamp c)).take 1024

end TW.Spec
