import Verif.Spec.Items

/-!
# References to entities that are not known
-/

namespace TW.Spec

/-- `ns` is a name of an entity that is not known: at most 15 characters of names, no number and none of the predefined names. It may be empty. -/
def UnknownName (ns : List Byte) : Prop :=
  ns.length ≤ 15 ∧ (∀ a ∈ ns, nameChar a = true) ∧ ns.head? ≠ some 35 ∧ ns ∉ entities.map (fun x => codes x.1)

/-- The first reference to an entity that is not known in the text `t` is between `pre` and `post`, with its semicolon. There is none if
the map of entities has a character `user` for all names. -/
def FirstUnknown (user : Option UChar) (t pre post : List Byte) : Prop :=
  user = none ∧ (∃ ns, t = pre ++ 38 :: ns ++ 59 :: post ∧ UnknownName ns) ∧
    ∀ pre' ns' post', t = pre' ++ 38 :: ns' ++ 59 :: post' → UnknownName ns' → pre.length ≤ pre'.length

end TW.Spec
