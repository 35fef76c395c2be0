import Verif.Spec.Path

/-!
# Conditions of steps

What conditions ask for, without counting ways.
-/

namespace TW.Spec.Path

open TW.Path

/-- The conditions are fulfilled by some of the attributes, in the order of the attributes. -/
inductive InOrder : List Cond → List (List Byte × List Byte) → Prop
  | none (as) : InOrder [] as
  | take {c cs a as} : c.accepts a = true → InOrder cs as → InOrder (c :: cs) (a :: as)
  | skip {cs a as} : InOrder cs as → InOrder cs (a :: as)

/-- The steps from the root to an element select it. -/
def Selected : List CStep → List Open → Prop
  | [], [] => True
  | s :: ss, x :: xs => s.accepts x.name = true ∧ InOrder s.conds x.attrs ∧ Selected ss xs
  | _, _ => False

/-- The attributes of an element have different names. -/
def Distinct (x : Open) : Prop := (x.attrs.map (·.1)).Nodup

/-- The elements of a stream have attributes with different names. -/
def DistinctNames : List Open → Option Item → List Item → Prop
  | _, _, [] => True
  | path, prev, it :: items => (∀ x ∈ grown path prev it, Distinct x) ∧ DistinctNames (grown path prev it) (some it) items

/-- The item completes the selection of an element: with it the element is selected, and it was not before. -/
def Completes (ss : List CStep) (path : List Open) (prev : Option Item) (it : Item) : Prop :=
  Selected ss (grown path prev it) ∧ (it.1 = .OpenTag ∨ (it.1 = .TagAttribValue ∧ ¬ Selected ss path))

/-- The reports at the items of a stream: one at each item that completes the selection of an element, none at the others. -/
def OneEach (ss : List CStep) : List Open → Option Item → List Item → List Nat → Prop
  | _, _, [], ks => ks = []
  | path, prev, it :: items, ks =>
    ∃ k rest, ks = k :: rest ∧ (Completes ss path prev it → k = 1) ∧ (¬ Completes ss path prev it → k = 0) ∧
      OneEach ss (grown path prev it) (some it) items rest

end TW.Spec.Path
