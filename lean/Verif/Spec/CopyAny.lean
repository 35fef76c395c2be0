import Verif.Spec.Copy
import Verif.Spec.Grammar

/-!
# Specification: what is copied of any document

`Parts` and `Read` are what a program sees of a document, independent of its spelling.
-/

namespace TW.Spec

/-- What is read in an element: texts, elements without end tag, and elements with one. -/
inductive Parts where
  | nil
  | text (cs : List UChar) (next : Parts)
  | empty (name : List UChar) (attrs : List (List UChar × List UChar)) (next : Parts)
  | elem (name : List UChar) (attrs : List (List UChar × List UChar)) (kids next : Parts)

/-- The items of attributes. -/
def attrItems (as : List (List UChar × List UChar)) : List TItem := as.flatMap fun a => [(.TagAttribName, a.1), (.TagAttribValue, a.2)]

/-- The items of parts. -/
def Parts.items : Parts → List TItem
  | .nil => []
  | .text cs ps => (.Content, cs) :: ps.items
  | .empty n as ps => (.OpenTag, n) :: (attrItems as ++ (.CloseTagIm, []) :: ps.items)
  | .elem n as ks ps => (.OpenTag, n) :: (attrItems as ++ (ks.items ++ (.CloseTag, n) :: ps.items))

/-- What is read of a document: maybe a header with version 1.0 (encoding and standalone attribute), maybe a document type (name, maybe a
system identifier with maybe a public identifier), the root element, and texts around them. -/
structure Read where
  header : Option (List UChar × Option (List UChar))
  before : List (List UChar)
  doctype : Option (List UChar × Option (Option (List UChar) × List UChar))
  between : List (List UChar)
  name : List UChar
  attrs : List (List UChar × List UChar)
  kids : Option Parts
  behind : List (List UChar)

/-- The root element. -/
def Read.root (r : Read) : Parts :=
  match r.kids with
  | none => .empty r.name r.attrs .nil
  | some ks => .elem r.name r.attrs ks .nil

/-- The items of a header. -/
def headItems : Option (List UChar × Option (List UChar)) → List TItem
  | none => []
  | some (e, s) =>
    [(.HeaderStart, codes "?xml"), (.HeaderAttribName, codes "version"), (.HeaderAttribValue, codes "1.0"),
      (.HeaderAttribName, codes "encoding"), (.HeaderAttribValue, e)] ++
    (match s with
     | some s => [(.HeaderAttribName, codes "standalone"), (.HeaderAttribValue, s)]
     | none => []) ++ [(.HeaderEnd, [])]

/-- The items of a document type. -/
def typeItems : Option (List UChar × Option (Option (List UChar) × List UChar)) → List TItem
  | none => []
  | some (r, i) =>
    [(.DocAttribValue, codes "DOCTYPE"), (.DocAttribValue, r)] ++
    (match i with
     | some (some p, s) => [(.DocAttribValue, codes "PUBLIC"), (.DocAttribValue, p), (.DocAttribValue, s)]
     | some (none, s) => [(.DocAttribValue, codes "SYSTEM"), (.DocAttribValue, s)]
     | none => []) ++ [(.DocAttribEnd, [])]

/-- The items of texts. -/
def textItems (ts : List (List UChar)) : List TItem := ts.map fun t => (.Content, t)

/-- The items of a document. -/
def Read.items (r : Read) : List TItem :=
  headItems r.header ++ (textItems r.before ++ (typeItems r.doctype ++ (textItems r.between ++ (r.root.items ++ (textItems r.behind ++ [(.Exit, [])])))))

/-- The number of open elements after an item. -/
def depth (t : ElementType) (d : Nat) : Nat :=
  match t with
  | .OpenTag => d + 1
  | .CloseTag => d - 1
  | .CloseTagIm => d - 1
  | _ => d

/-- The text collected. -/
def shown (cs : List UChar) : List TItem := if cs = [] then [] else [(.Content, cs)]

/-- What items tell: texts that follow each other are one text, and texts outside of the root element are left away. `d` is the number of open
elements, `cs` the text collected. -/
def core : Nat → List UChar → List TItem → List TItem
  | _, cs, [] => shown cs
  | d, cs, (t, x) :: l => if t = .Content then core d (if d = 0 then cs else cs ++ x) l else shown cs ++ (t, x) :: core (depth t d) [] l

/-- Characters that the copying program and its output have. -/
def CharsOk (new out : Enc) (cs : List UChar) : Prop :=
  (∀ c ∈ cs, Writable new c ∧ Printable out c) ∧ (cs.flatMap new.print).length + 16 ≤ 2 ^ 32

/-- A name. -/
def WordOk (new out : Enc) (cs : List UChar) : Prop :=
  CharsOk new out cs ∧ cs ≠ [] ∧ ∀ c ∈ cs, c ≠ 38 ∧ (c < 128 → Kind.word.ends c = false)

/-- A string in header or document type. -/
def LiteralOk (new out : Enc) (cs : List UChar) : Prop := CharsOk new out cs ∧ ∀ c ∈ cs, c ∉ [13, 34, 38, 60]

/-- Attributes. -/
def AttribsOk (new out : Enc) (as : List (List UChar × List UChar)) : Prop := ∀ a ∈ as, WordOk new out a.1 ∧ CharsOk new out a.2

/-- Parts. -/
def Parts.Ok (new out : Enc) : Parts → Prop
  | .nil => True
  | .text cs ps => (CharsOk new out cs ∧ ∀ c ∈ cs, c ≠ 13) ∧ ps.Ok new out
  | .empty n as ps => WordOk new out n ∧ AttribsOk new out as ∧ ps.Ok new out
  | .elem n as ks ps => WordOk new out n ∧ AttribsOk new out as ∧ ks.Ok new out ∧ ps.Ok new out

/-- Documents. -/
def Read.Ok (new out : Enc) (r : Read) : Prop :=
  (∀ h ∈ r.header, AsciiBased new ∧ LiteralOk new out h.1 ∧ ∀ s ∈ h.2, LiteralOk new out s) ∧
  (∀ d ∈ r.doctype, AsciiBased new ∧ WordOk new out d.1 ∧ ∀ i ∈ d.2, (∀ p ∈ i.1, LiteralOk new out p) ∧ LiteralOk new out i.2) ∧
  r.root.Ok new out

end TW.Spec
