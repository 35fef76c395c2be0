import Verif.Model.PathSelect

/-!
# What a state of an automaton leads to
-/

namespace TW.Path

/-- The chain of states that starts with a state. -/
inductive Linked (a : Atm) : Option Nat → Nat → Prop
  | here (i : Nat) : Linked a (some i) i
  | next {i k : Nat} {st : State} (h : a[i]? = some st) (t : Linked a st.link k) : Linked a (some i) k

/-- What a state may report on an item with a key: its own type, or, if it has no key or this one, those of the states that
follow it and wait for nothing. -/
def Reports (a : Atm) (key : List Byte) (st : State) (ty : Int) : Prop :=
  st.core.typeidx = ty ∨ ((∀ k, st.key = some k → k = key) ∧ ∃ i st', Linked a st.next i ∧ a[i]? = some st' ∧ st'.core.mask.empty = true ∧ st'.core.typeidx = ty)

end TW.Path
