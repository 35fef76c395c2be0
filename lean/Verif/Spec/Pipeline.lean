import Verif.Spec.PathText
import Verif.Spec.PathRange
import Verif.Spec.Grammar
import Verif.Spec.KeyName
import Verif.Model.PathParse

/-!
# Documents and expressions as texts

What has to be selected from a document of the grammar by expressions written as texts.
-/

namespace TW.Spec.Path

open TW.Path

/-- An expression as it is written: its parts, its text, and the type assigned to it. -/
structure Written where
  path : TPath
  codes : List UChar
  type : Int

/-- The text of an expression in a character set. -/
def Written.bytes (se : Enc) (w : Written) : List Byte := w.codes.flatMap se.print

/-- The bytes that the names are compared with: only 1024 bytes of a name count, see `C85_long_false`; the wildcard has none. -/
def TName.asked (e : Enc) : TName → Option (List Byte)
  | .one cs => some (Spec.asked e cs)
  | _ => none

/-- What is asked for by the end of an expression; a separator or a '@' with nothing behind has no meaning. -/
def TEnd.final (e : Enc) : TEnd → Final
  | .nothing => .element
  | .slash _ => .element
  | .attribute sep (some nm) => .attribute (sep = some true) (nm.asked e)
  | .attribute _ none => .element
  | .content sep => .content (sep = some true)
  | .closeTag => .closeTag false

/-- The condition for attributes. What comes behind the first character that is none of a name does not count in the value, see `C75_value_false`
and `C85_cut`, nor what comes behind 1024 bytes, see `C85_long_false`, and an `&` stands for the character 0, see `C85_entity_false`. -/
def TCond.cond (e : Enc) : TCond → Option Cond
  | .attr name value => some ⟨some (asked e name), some (asked e value.chars)⟩
  | _ => none

/-- The range of a number. -/
def TCond.number : TCond → Option Range
  | .attr _ _ => none
  | .index i => some (.index (decimal i))
  | .range i j => some (.range (decimal i) (decimal j))
  | .from' i => some (.from (decimal i))

/-- The step of a query. -/
def TStep.step (e : Enc) (s : TStep) : CStep := ⟨⟨s.sep = some true, s.name.bind (·.asked e)⟩, s.conds.filterMap (·.cond e)⟩

/-- The query an expression without alternatives stands for. -/
def TPath.query (e : Enc) (type : Int) (p : TPath) : Query :=
  { steps := p.steps.map (·.step e), final := p.final.final e, type := type }

/-- The queries an expression stands for: one for each choice of its alternatives. -/
def Written.queries (e : Enc) (w : Written) : List Query := w.path.picks.map (·.query e w.type)

/-- The conditions of an expression. -/
def Written.conds (w : Written) : List TCond := w.path.steps.flatMap (·.conds)

/-- The queries with the numbers in the expression, whichever steps these are written at. -/
def Written.ranged (e : Enc) (w : Written) : List Ranged := (w.queries e).map (⟨·, w.conds.filterMap TCond.number⟩)

/-- The identifiers of a name. -/
def TName.ids : TName → List (List UChar)
  | .any => []
  | .one cs => [cs]
  | .alt l => l

/-- The names of an expression. -/
def Written.names (w : Written) : List (List UChar) :=
  (w.path.steps.filterMap (·.name)).flatMap TName.ids ++ (w.conds.filterMap fun
    | .attr name _ => some name
    | _ => none) ++ match w.path.final with
    | .attribute _ (some nm) => nm.ids
    | _ => []

/-- The values in the conditions of an expression. -/
def Written.values (w : Written) : List (List UChar) :=
  w.conds.filterMap fun
    | .attr _ value => some value.chars
    | _ => none

/-- The expression asks for elements or their close tags; numbers have no effect then, see `C45_ranges_false`. -/
def TEnd.Unnumbered : TEnd → Prop
  | .nothing | .slash _ | .closeTag | .attribute _ none => True
  | _ => False

/-- What an expression must be: of the grammar, no namespaces, names of characters the automaton can take; a name in every step;
values of characters the automaton can take; nothing behind '//' or '//@' is not allowed, and without steps only
contents or attributes. -/
structure Written.Fine (se e : Enc) (w : Written) : Prop where
  path : w.path.Ok
  text : w.path.Text w.codes
  code : ∀ c ∈ w.codes, c ≠ 0 ∧ c < 2 ^ 32 ∧ Direct se c
  plain : ∀ i, ¬ ((w.bytes se)[i]? = some 58 ∧ (w.bytes se)[i + 1]? = some 58)
  size : (w.bytes se).length + 4 < 2 ^ 32
  step : ∀ s ∈ w.path.steps, s.name ≠ none
  name : ∀ cs ∈ w.names, ∀ c ∈ cs, c < 2 ^ 32 ∧ Direct e c
  value : ∀ cs ∈ w.values, ∀ c ∈ cs, c < 2 ^ 32 ∧ Direct e c
  final : w.path.final ≠ .slash true ∧ w.path.final ≠ .attribute (some true) none
  some : w.path.steps = [] → (∃ d, w.path.final = .content d) ∨ ∃ sep name, w.path.final = .attribute sep (some name)

/-- The same with numbers only in expressions for elements and close tags. -/
structure Written.Ok (se e : Enc) (w : Written) : Prop extends w.Fine se e where
  cond : ∀ c ∈ w.conds, (∃ name value, c = .attr name value) ∨ w.path.final.Unnumbered

/-- The expression asks for nothing that the header of a document can fulfil: it does not begin with a wildcard, see `C43_header_false`, and not with
an attribute, see `C73_header_attribute_false`. -/
structure Written.Inside (w : Written) : Prop where
  first : ∀ s, w.path.steps.head? = some s → s.name ≠ some .any
  final : w.path.steps = [] → ∀ sep nm, w.path.final ≠ .attribute sep nm

/-- Attributes of all the elements in others (`//@name`) and contents are not both asked for, see `C73_descendant_attribute_false`. -/
def Calm (ws : List Written) : Prop :=
  (∃ w ∈ ws, ∃ nm, w.path.final = .attribute (some true) nm) → ∀ w ∈ ws, ∀ sep, w.path.final ≠ .content sep

/-- Adding expressions to an automaton, one after the other; the results of the calls. -/
def addAll (se e : Enc) (n : Nat) : List (Int × List Byte) → M Atm (List Nat)
  | [] => pure []
  | x :: xs => do
    let r ← addExpression se e n x.1 x.2
    let rs ← addAll se e n xs
    pure (r :: rs)

/-- The items of a document with their bytes in a character set. -/
def docItems (e : Enc) (d : Document) : List Item := d.items.map fun i => (i.1, i.2.flatMap e.print)

/-- The text is one of the grammar. -/
def Valid (cs : List UChar) : Prop := ∃ p : TPath, p.Ok ∧ p.Text cs

/-- The bytes have two colons in sequence. -/
def Colons (bs : List Byte) : Prop := ∃ i : Nat, bs[i]? = some 58 ∧ bs[i + 1]? = some 58

/-- A text given to the parser: an expression, or anything that is none. -/
inductive Entry where
  | expr (w : Written)
  | wrong (type : Int) (codes : List UChar)

def Entry.codes : Entry → List UChar
  | .expr w => w.codes
  | .wrong _ cs => cs

def Entry.type : Entry → Int
  | .expr w => w.type
  | .wrong type _ => type

def Entry.bytes (se : Enc) (x : Entry) : List Byte := x.codes.flatMap se.print

def Entry.written : Entry → Option Written
  | .expr w => some w
  | .wrong _ _ => none

/-- Texts that are no expressions: not of the grammar, or with the colons of a namespace; with characters the automaton can take. -/
def Entry.Ok (se e : Enc) : Entry → Prop
  | .expr w => w.Ok se e
  | .wrong _ cs => (Colons (cs.flatMap se.print) ∨ ¬ Valid cs) ∧
      (∀ c ∈ cs, c ≠ 0 ∧ c < 2 ^ 32 ∧ Direct se c ∧ Direct e c) ∧ (cs.flatMap se.print).length + 8 < 2 ^ 32

end TW.Spec.Path
