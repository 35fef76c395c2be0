import Verif.Model.PathSelect
import Verif.Spec.Text

/-!
# Path expressions with tag steps

Independent of the automaton and of the selector.
-/

namespace TW.Spec.Path

open TW.Path

/-- A step of a path expression: `/name`, `//name`, `/*` or `//*`. -/
structure Step where
  desc : Bool
  name : Option (List Byte)
  deriving DecidableEq, Repr

/-- The step accepts a tag name. -/
def Step.accepts (s : Step) (name : List Byte) : Bool :=
  match s.name with
  | some k => k = name
  | none => true

/-- In how many ways the steps can be matched against the tag names from the root to an
element: the last step matches the element, a child step matches the name following the one matched by the step
before, a descendant step any of the names following. -/
def ways : List Step → List (List Byte) → Nat
  | [], [] => 1
  | [], _ :: _ => 0
  | _ :: _, [] => 0
  | s :: ss, n :: ns => (if s.accepts n then ways ss ns else 0) + (if s.desc then ways (s :: ss) ns else 0)

/-- An expression with the type assigned to it. -/
structure Expr where
  steps : List Step
  type : Int
  deriving DecidableEq, Repr

/-- The calls defining an expression. -/
def Expr.calls (x : Expr) : List PElem.Call :=
  x.steps.flatMap (fun s => (if s.desc then [.follow] else []) ++ [.tag s.name]) ++ [.assign x.type]

/-- An item of an XML stream: its type and its value. -/
abbrev Item := ElementType × List Byte

/-- The path of tag names from the root after an item. -/
def after (path : List (List Byte)) (it : Item) : List (List Byte) :=
  match it.1 with
  | .OpenTag => path ++ [it.2]
  | .CloseTag | .CloseTagIm => path.dropLast
  | _ => path

/-- How often a type has to be reported at the items of a stream. -/
def expected (xs : List Expr) (ty : Int) : List (List Byte) → List Item → List Nat
  | _, [] => []
  | path, it :: items =>
    (if it.1 = .OpenTag then
        ((xs.filter (·.type = ty)).map fun x => ways x.steps (path ++ [it.2])).sum
      else 0) :: expected xs ty (after path it) items

end TW.Spec.Path

namespace TW.Spec.Path

open TW.Path

/-- The names a path expression can ask for: not empty, of characters allowed in tags, up to 1024 bytes. -/
def Name (e : Enc) (nm : List Byte) : Prop :=
  nm ≠ [] ∧ nm.length ≤ 1024 ∧ ∃ cs : List UChar, nm = cs.flatMap e.print ∧ ∀ c ∈ cs, c < 2 ^ 32 ∧ Direct e c ∧
    c ≠ 0 ∧ isTagC (controlCharMap (if c < 128 then c else 255)) = true

/-- The character sets with a terminating null byte. -/
def ByteSet (e : Enc) : Prop := e = .utf8 ∨ ∃ p, e = .isolatin p ∧ 1 ≤ p ∧ p ≤ 9

/-- The paths of the elements opened by the items of a stream. -/
def opened : List (List Byte) → List Item → List (Option (List (List Byte)))
  | _, [] => []
  | path, it :: items => (if it.1 = .OpenTag then some (path ++ [it.2]) else none) :: opened (after path it) items

/-- The expression `/t1/t2/../tn`. -/
def absolute (p : List (List Byte) × Int) : Expr := { steps := p.1.map fun n => ⟨false, some n⟩, type := p.2 }

/-- The results of a selector for an automaton built by calls, for a stream of items. -/
def Selects (e : Enc) (n : Nat) (defs : List (List PElem.Call)) (items : List Item) (rss : List (List Int)) : Prop :=
  ∃ a s, build e n defs [] = (.ok (), a) ∧ Sel.mk' a = .ok s ∧ ∃ N s', ∀ m, N ≤ m → Sel.feed m items s = (.ok rss, s')

/-- Item sequences where every open tag has its close tag. -/
inductive Balanced : List Item → Prop where
  | nil : Balanced []
  | item {it : Item} {items : List Item} (h : it.1 ≠ .OpenTag ∧ it.1 ≠ .CloseTag ∧ it.1 ≠ .CloseTagIm) :
    Balanced items → Balanced (it :: items)
  | element {a b : Item} {inner items : List Item} (ha : a.1 = .OpenTag) (hb : b.1 = .CloseTag ∨ b.1 = .CloseTagIm) :
    Balanced inner → Balanced items → Balanced (a :: inner ++ b :: items)

/-- Feed a selector with items, taking of each one some number of results. -/
def takes (n : Nat) : List (Item × Nat) → M Sel Unit
  | [] => pure ()
  | (it, k) :: items => do
    Sel.pushSome n it.1 it.2 k
    takes n items

/-! ## Queries: elements, contents, attributes and close tags, with conditions -/

/-- A condition `[@name='value']` of a step; any name or any value without one. -/
structure Cond where
  name : Option (List Byte)
  value : Option (List Byte)
  deriving DecidableEq, Repr

/-- An attribute with the name and the value fulfils the condition. -/
def Cond.accepts (c : Cond) (a : List Byte × List Byte) : Bool :=
  (match c.name with
    | some k => k = a.1
    | none => true) &&
  (match c.value with
    | some v => v = a.2
    | none => true)

/-- A step with conditions. -/
structure CStep extends Step where
  conds : List Cond
  deriving DecidableEq, Repr

/-- An open element: its name and its attributes with their values, as far as they have come. -/
structure Open where
  name : List Byte
  attrs : List (List Byte × List Byte)
  deriving DecidableEq, Repr

/-- In how many ways the conditions can be fulfilled by the attributes: every condition by an attribute behind
the one fulfilling the condition before. -/
def choices : List Cond → List (List Byte × List Byte) → Nat
  | [], _ => 1
  | _ :: _, [] => 0
  | c :: cs, a :: as => (if c.accepts a then choices cs as else 0) + choices (c :: cs) as

/-- In how many ways the steps can be matched against the elements from the root to an element, with the
attributes fulfilling the conditions. -/
def routes : List CStep → List Open → Nat
  | [], [] => 1
  | [], _ :: _ => 0
  | _ :: _, [] => 0
  | s :: ss, x :: xs => (if s.accepts x.name then choices s.conds x.attrs * routes ss xs else 0) +
      (if s.desc then routes (s :: ss) xs else 0)

/-- The open elements after an item coming directly behind the item `prev`. -/
def grown (path : List Open) (prev : Option Item) (it : Item) : List Open :=
  match it.1, prev with
  | .OpenTag, _ => path ++ [⟨it.2, []⟩]
  | .CloseTag, _ => path.dropLast
  | .CloseTagIm, _ => path.dropLast
  | .TagAttribValue, some (.TagAttribName, nm) =>
    match path.getLast? with
    | some x => path.dropLast ++ [{ x with attrs := x.attrs ++ [(nm, it.2)] }]
    | none => path
  | _, _ => path

/-- What a query asks for: the elements themselves, their contents, an attribute of them or their close tags, or the contents, an
attribute or the close tags also of all the elements in them; any attribute without a name. -/
inductive Final where
  | element
  | content (desc : Bool)
  | attribute (desc : Bool) (name : Option (List Byte))
  | closeTag (desc : Bool)
  deriving DecidableEq, Repr

/-- A query with the type assigned to it. -/
structure Query where
  steps : List CStep
  final : Final
  type : Int
  deriving DecidableEq, Repr

/-- The calls for what a query asks for. -/
def Final.calls : Final → List PElem.Call
  | .element => []
  | .content desc => (if desc then [.follow] else []) ++ [.content]
  | .attribute desc name => (if desc then [.follow] else []) ++ [.attribute name]
  | .closeTag desc => (if desc then [.follow] else []) ++ [.closeTag]

/-- The calls for a step. -/
def CStep.calls (s : CStep) : List PElem.Call :=
  (if s.desc then [.follow] else []) ++ [.tag s.name] ++ s.conds.map fun c => .ifAttribute c.name c.value

/-- The calls defining a query. -/
def Query.calls (x : Query) : List PElem.Call := x.steps.flatMap CStep.calls ++ x.final.calls ++ [.assign x.type]

/-- In how many ways the steps lead to an element, and to the elements containing it if `desc`. -/
def reaches (steps : List CStep) (desc : Bool) (path : List Open) : Nat :=
  routes steps path + if desc then routes (steps ++ [⟨⟨true, none⟩, []⟩]) path else 0

/-- How often a query has to be answered at an item, if the item is in the elements given and comes directly behind
the item `prev`. Elements are reported where the steps and the conditions are fulfilled first: at the open tag,
or at the value of the attribute fulfilling the last condition. -/
def Query.answers (x : Query) (path : List Open) (prev : Option Item) (it : Item) : Nat :=
  match x.final with
  | .element =>
    match it.1 with
    | .OpenTag => routes x.steps (grown path prev it)
    | .TagAttribValue => routes x.steps (grown path prev it) - routes x.steps path
    | _ => 0
  | .content desc => if it.1 = .Content then reaches x.steps desc path else 0
  | .attribute desc name =>
    match it.1, prev with
    | .TagAttribValue, some (.TagAttribName, nm) => if Step.accepts ⟨false, name⟩ nm then reaches x.steps desc path else 0
    | _, _ => 0
  | .closeTag desc => if it.1 = .CloseTag ∨ it.1 = .CloseTagIm then reaches x.steps desc path else 0

/-- How often a type has to be reported at the items of a stream. -/
def answers (xs : List Query) (ty : Int) : List Open → Option Item → List Item → List Nat
  | _, _, [] => []
  | path, prev, it :: items =>
    ((xs.filter (·.type = ty)).map fun x => x.answers path prev it).sum ::
      answers xs ty (grown path prev it) (some it) items

/-- The query depends on the places of the attributes or of the header. -/
def Query.placed (x : Query) : Prop :=
  (∃ s ∈ x.steps, s.conds ≠ []) ∨ (∃ d name, x.final = .attribute d name) ∨ ∃ d, x.final = .closeTag d

/-- What is required from a query: names and values that an expression can ask for, and without steps only contents or attributes
asked for. -/
structure Query.Ok (e : Enc) (x : Query) : Prop where
  root : x.steps = [] → (∃ d, x.final = .content d) ∨ ∃ d name, x.final = .attribute d name
  names : ∀ s ∈ x.steps, (∀ nm, s.name = some nm → Name e nm) ∧
    ∀ c ∈ s.conds, (∀ nm, c.name = some nm → Name e nm) ∧ ∀ v, c.value = some v → Name e v
  attr : ∀ d name, x.final = .attribute d name → ∀ nm, name = some nm → Name e nm

/-- The names and values of a query, each replaced by another text. -/
def Cond.via (f : List Nat → List Byte) (c : Cond) : Cond := ⟨c.name.map f, c.value.map f⟩

def CStep.via (f : List Nat → List Byte) (s : CStep) : CStep := ⟨⟨s.desc, s.name.map f⟩, s.conds.map (·.via f)⟩

def Final.via (f : List Nat → List Byte) : Final → Final
  | .attribute desc name => .attribute desc (name.map f)
  | x => x

def Query.via (f : List Nat → List Byte) (x : Query) : Query := ⟨x.steps.map (·.via f), x.final.via f, x.type⟩

/-- The names in a query: of elements and of attributes. -/
def Query.names (x : Query) : List (List Nat) :=
  x.steps.filterMap (·.name) ++ (x.steps.flatMap (·.conds)).filterMap (·.name) ++ match x.final with
    | .attribute _ name => name.toList
    | _ => []

/-- The values in the conditions of a query; `none` for any value. -/
def Query.values (x : Query) : List (Option (List Nat)) := (x.steps.flatMap (·.conds)).map (·.value)

/-- Attributes of all the elements in others are asked for only if no contents are. -/
def Quiet (xs : List Query) : Prop := (∃ x ∈ xs, ∃ name, x.final = .attribute true name) → ∀ x ∈ xs, ∀ d, x.final ≠ .content d

/-- Attributes are asked for without steps only in streams without a header with attributes. -/
def Outside (xs : List Query) (items : List Item) : Prop :=
  (∃ x ∈ xs, x.steps = [] ∧ ∃ d name, x.final = .attribute d name) → ∀ it ∈ items, it.1 ≠ .HeaderAttribValue

/-- The steps without their conditions. -/
def Query.tags (x : Query) : List Step := x.steps.map (·.toStep)

/-- The headers of a stream are no tags for lists of steps: a step accepts the name of a header only if other steps come before
it and the header is outside of the elements. -/
def HeaderFree (xs : List (List Step)) : List (List Byte) → List Item → Prop
  | _, [] => True
  | path, it :: items =>
    (it.1 = .HeaderStart → ∀ ss ∈ xs, ∀ (i : Nat) (s : Step), ss[i]? = some s → s.accepts it.2 = true → path = [] ∧ 0 < i) ∧
    HeaderFree xs (after path it) items

/-- The name the scanner gives to the header, see `C66_document`. -/
def headerName : List Byte := ascii "?xml"

/-- The headers of a stream have the name the scanner gives to them. -/
def HeaderNames (items : List Item) : Prop := ∀ it ∈ items, it.1 = .HeaderStart → it.2 = headerName

/-- The names of attributes are in open tags, the values directly behind the names, and the header is outside
of the elements. -/
def Tidy : List (List Byte) → Option Item → List Item → Prop
  | _, _, [] => True
  | path, prev, it :: items =>
    (it.1 = .TagAttribName → ∃ p, prev = some p ∧ (p.1 = .OpenTag ∨ p.1 = .TagAttribValue)) ∧
    (it.1 = .TagAttribValue → ∃ p, prev = some p ∧ p.1 = .TagAttribName) ∧
    (it.1 = .HeaderAttribValue ∨ it.1 = .HeaderEnd → path = []) ∧
    Tidy (after path it) (some it) items

end TW.Spec.Path
