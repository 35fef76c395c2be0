import Verif.Model.Stm

/-!
# Specification: the order of the items

A small automaton with the items as its letters. It knows nothing of characters and of the states of the scanner.
-/

namespace TW.Spec.Order

/-- Where the stream of items is. -/
inductive Stage where
  /-- Before the first item. -/
  | start
  /-- In the header, a name or the end is next. -/
  | header
  /-- In the header behind the name of an attribute. -/
  | headerName
  /-- Outside of tags, headers and declarations. -/
  | body
  /-- Behind the name of an open tag or behind the value of an attribute. -/
  | tag
  /-- Behind the name of an attribute of a tag. -/
  | tagName
  /-- Behind the immediate end of a tag. -/
  | closed
  /-- In a declaration. -/
  | decl
  /-- Behind the end of the document. -/
  | over
  deriving DecidableEq, Repr

def Stage.all : List Stage := [.start, .header, .headerName, .body, .tag, .tagName, .closed, .decl, .over]

/-- Where an item outside of tags, headers and declarations leads to. -/
def plain : ElementType → Option Stage
  | .OpenTag => some .tag
  | .CloseTag | .Content | .DocAttribEnd => some .body
  | .DocAttribValue => some .decl
  | .Exit => some .over
  | _ => none

/-- The stage behind an item, `none` if the item is out of place. -/
def step : Stage → ElementType → Option Stage
  | .start, .HeaderStart => some .header
  | .header, .HeaderAttribName => some .headerName
  | .header, .HeaderEnd => some .body
  | .headerName, .HeaderAttribValue => some .header
  | .tag, .TagAttribName => some .tagName
  | .tagName, .TagAttribValue => some .tag
  | .tag, .CloseTagIm | .closed, .CloseTagIm => some .closed
  | .decl, .DocAttribValue => some .decl
  | .decl, .DocAttribEnd => some .body
  | .over, .Exit => some .over
  | .start, t | .body, t | .tag, t | .closed, t => plain t
  | _, _ => none

/-- The stage behind a sequence of items. -/
def run : Stage → List ElementType → Option Stage
  | p, [] => some p
  | p, t :: ts => match step p t with
    | some q => run q ts
    | none => none

/-- The items without the errors. -/
def sound (ts : List ElementType) : List ElementType := ts.filter (· ≠ .ErrorOccurred)

/-- The items without the errors are in order. -/
def Ordered (ts : List ElementType) : Prop := ∃ q, run .start (sound ts) = some q

/-- The item type comes at most once in a row. -/
def Once (t : ElementType) : List ElementType → Prop
  | a :: b :: ts => (a = t → b ≠ t) ∧ Once t (b :: ts)
  | _ => True

end TW.Spec.Order
