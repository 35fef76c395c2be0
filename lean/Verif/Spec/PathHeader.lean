import Verif.Spec.Path

/-!
# Selecting in documents with a header

For a selector the header is an element before the document; the steps behind a step for it are searched for in the document, too.
-/

namespace TW.Spec.Path

open TW.Path

/-- The items of a header. -/
def headerItems (name : List Byte) (attrs : List (List Byte × List Byte)) (last : List Byte) : List Item :=
  (.HeaderStart, name) :: attrs.flatMap (fun a => [(.HeaderAttribName, a.1), (.HeaderAttribValue, a.2)]) ++ [(.HeaderEnd, last)]

/-- The items of an element with attributes and nothing in it. -/
def elementItems (name : List Byte) (attrs : List (List Byte × List Byte)) (last : List Byte) : List Item :=
  (.OpenTag, name) :: attrs.flatMap (fun a => [(.TagAttribName, a.1), (.TagAttribValue, a.2)]) ++ [(.CloseTag, last)]

/-- In how many ways the first of the steps is for the header. -/
def share (h : Open) : List CStep → Nat
  | [] => 0
  | s :: _ => if s.accepts h.name then choices s.conds h.attrs else 0

/-- The query behind its first step. -/
def Query.behind (x : Query) : Query := { x with steps := x.steps.tail }

/-- The queries behind their steps for the header, each one as often as its first step is for the header. -/
def carried (h : Open) (xs : List Query) : List Query := xs.flatMap fun x => List.replicate (share h x.steps) x.behind

/-- An item of a header. -/
def Heads (type : ElementType) : Prop :=
  type = .HeaderStart ∨ type = .HeaderAttribName ∨ type = .HeaderAttribValue ∨ type = .HeaderEnd

end TW.Spec.Path
