import Verif.Spec.Items
import Verif.Spec.Print
import Verif.Spec.Text

/-!
# Specification: document trees

The calls that print a tree, and the items that are read for it.
-/

namespace TW.Spec

/-- A list of nodes: character data, and elements with their attributes and the nodes in them. Strings are in the
encoding of the application. -/
inductive Nodes where
  | nil
  | text (v : List Byte) (next : Nodes)
  | elem (name : List Byte) (attrs : List (List Byte × List Byte)) (kids next : Nodes)

/-- There are no nodes. -/
def Nodes.isNil : Nodes → Bool
  | .nil => true
  | _ => false

/-- A document: maybe an XML header (encoding and standalone attribute), maybe a document type (name, maybe a system
identifier with maybe a public identifier), and the root element. -/
structure Tree where
  header : Option (Option (List Byte) × Option (List Byte))
  doctype : Option (List Byte × Option (Option (List Byte) × List Byte))
  name : List Byte
  attrs : List (List Byte × List Byte)
  kids : Nodes

/-- The calls that print attributes. -/
def attrCalls (as : List (List Byte × List Byte)) : List PCall := as.flatMap fun a => [.attr a.1, .value a.2]

/-- The calls that print nodes. -/
def Nodes.calls : Nodes → List PCall
  | .nil => []
  | .text v ns => .value v :: ns.calls
  | .elem n as ks ns => .open_ n :: attrCalls as ++ ks.calls ++ .close :: ns.calls

/-- The calls that print a header. -/
def headerCalls : Option (Option (List Byte) × Option (List Byte)) → List PCall
  | some (e, s) => [.header e s]
  | none => []

/-- The calls that print a document type. -/
def doctypeCalls : Option (List Byte × Option (Option (List Byte) × List Byte)) → List PCall
  | some (r, some (p, s)) => [.doctype (some r) p (some s)]
  | some (r, none) => [.doctype (some r) none none]
  | none => []

/-- The calls that print a document. -/
def Tree.calls (t : Tree) : List PCall :=
  headerCalls t.header ++ doctypeCalls t.doctype ++ (Nodes.elem t.name t.attrs t.kids .nil).calls

/-- What is read for a node: an item, or a part of an item with character data. -/
inductive Event where
  | item (t : ElementType) (cs : List UChar)
  | text (cs : List UChar)

/-- The items, adjacent character data joined and left away if it is empty; `cs` is the character data read so far. -/
def joined : List UChar → List Event → List (ElementType × List UChar)
  | cs, [] => if cs = [] then [] else [(.Content, cs)]
  | cs, .text cs' :: es => joined (cs ++ cs') es
  | cs, .item t i :: es => (if cs = [] then [] else [(.Content, cs)]) ++ (t, i) :: joined [] es

/-- What is read for attributes. -/
def attrEvents (app : Enc) (as : List (List Byte × List Byte)) : List Event :=
  as.flatMap fun a => [.item .TagAttribName (decode app a.1), .item .TagAttribValue (decode app a.2)]

/-- What is read for nodes. -/
def Nodes.events (app : Enc) : Nodes → List Event
  | .nil => []
  | .text v ns => .text (decode app v) :: ns.events app
  | .elem n as ks ns => .item .OpenTag (decode app n) :: attrEvents app as ++
      (if ks.isNil then [.item .CloseTagIm []] else ks.events app ++ [.item .CloseTag (decode app n)]) ++ ns.events app

/-- What is read for the header. Strings without length end at the first NUL byte. -/
def Tree.headerItems (app : Enc) (t : Tree) : List (ElementType × List UChar) :=
  match t.header with
  | none => []
  | some (e, s) =>
    [(.HeaderStart, codes "?xml"), (.HeaderAttribName, codes "version"), (.HeaderAttribValue, codes "1.0"),
      (.HeaderAttribName, codes "encoding"),
      (.HeaderAttribValue, match e with | some e => decode app (untilNul e) | none => codes "UTF-8")] ++
    (match s with
     | some s => [(.HeaderAttribName, codes "standalone"), (.HeaderAttribValue, decode app (untilNul s))]
     | none => []) ++ [(.HeaderEnd, [])]

/-- What is read for the document type. -/
def Tree.doctypeItems (app : Enc) (t : Tree) : List (ElementType × List UChar) :=
  match t.doctype with
  | none => []
  | some (r, i) =>
    [(.DocAttribValue, codes "DOCTYPE"), (.DocAttribValue, decode app (untilNul r))] ++
    (match i with
     | some (some p, s) => [(.DocAttribValue, codes "PUBLIC"), (.DocAttribValue, decode app (untilNul p)),
         (.DocAttribValue, decode app (untilNul s))]
     | some (none, s) => [(.DocAttribValue, codes "SYSTEM"), (.DocAttribValue, decode app (untilNul s))]
     | none => []) ++ [(.DocAttribEnd, [])]

/-- The items of a document. The line break that the printer writes behind the root element is read as content. -/
def Tree.items (app : Enc) (t : Tree) : List (ElementType × List UChar) :=
  t.headerItems app ++ t.doctypeItems app ++
    joined [] ((Nodes.elem t.name t.attrs t.kids .nil).events app ++ [.text [10]]) ++ [(.Exit, [])]

/-- A string the printer takes as it is. -/
def StringOk (x : List Byte) : Prop := (∀ b ∈ x, b < 256) ∧ x.length + 16 ≤ 2 ^ 32

/-- The output encoding has a representation of the character, maybe as reference. -/
def Printable (out : Enc) (c : UChar) : Prop := out = .utf8 → c ≤ 0x7FFFFFFF

/-- A name: not empty, of characters that do not end a name and no ampersand. -/
def NameOk (app out : Enc) (n : List Byte) : Prop :=
  decode app n ≠ [] ∧ ∀ c ∈ decode app n, Printable out c ∧ c ≠ 38 ∧ (c < 128 → Kind.word.ends c = false)

/-- A value of an attribute. -/
def ValueOk (app out : Enc) (v : List Byte) : Prop := StringOk v ∧ ∀ c ∈ decode app v, Printable out c

/-- Character data: without carriage returns. -/
def DataOk (app out : Enc) (v : List Byte) : Prop := StringOk v ∧ ∀ c ∈ decode app v, Printable out c ∧ c ≠ 13

/-- A string in header or document type, which the printer does not escape. -/
def PlainOk (app out : Enc) (v : List Byte) : Prop :=
  StringOk v ∧ ∀ c ∈ decode app (untilNul v), Printable out c ∧ c ∉ [13, 34, 38, 60]

/-- What the attributes must be. -/
def AttrsOk (app out : Enc) (as : List (List Byte × List Byte)) : Prop :=
  ∀ a ∈ as, StringOk a.1 ∧ NameOk app out a.1 ∧ ValueOk app out a.2

/-- What the nodes must be. -/
def Nodes.Ok (app out : Enc) : Nodes → Prop
  | .nil => True
  | .text v ns => DataOk app out v ∧ ns.Ok app out
  | .elem n as ks ns => StringOk n ∧ NameOk app out n ∧ AttrsOk app out as ∧ ks.Ok app out ∧ ns.Ok app out

/-- What a document must be. Header and document type need an application encoding based on ASCII (see C60). -/
def Tree.Ok (app out : Enc) (t : Tree) : Prop :=
  (match t.header with
   | none => True
   | some (e, s) => AsciiBased app ∧ (∀ x ∈ e, PlainOk app out x) ∧ ∀ x ∈ s, PlainOk app out x) ∧
  (match t.doctype with
   | none => True
   | some (r, i) => AsciiBased app ∧ StringOk r ∧ NameOk app out (untilNul r) ∧
      ∀ x ∈ i, (∀ y ∈ x.1, PlainOk app out y) ∧ PlainOk app out x.2) ∧
  (Nodes.elem t.name t.attrs t.kids .nil).Ok app out

end TW.Spec
