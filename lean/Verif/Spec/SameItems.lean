import Verif.Model.Session
import Verif.Spec.Units

/-!
# Specification: the same items from another source
-/

namespace TW.Spec

/-- The lists have the same length and elements at the same place are related. -/
def Pairs {α β : Type} (R : α → β → Prop) : List α → List β → Prop
  | [], [] => True
  | a :: as, b :: bs => R a b ∧ Pairs R as bs
  | _, _ => False

/-- The items are the same, and so are their positions if the character at the position is one of the document. -/
structure SameItem (e : Enc) (doc : List Byte) (o o' : Obs) : Prop where
  type : o'.type = o.type
  item : o'.item = o.item
  error : o'.error = o.error
  asked : o'.pos.isSome = o.pos.isSome
  pos : ∀ p, o.pos = some p → p + ulen e (strm doc) p ≤ doc.length → o'.pos = some p

end TW.Spec
