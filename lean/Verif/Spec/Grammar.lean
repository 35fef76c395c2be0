import Verif.Spec.Items
import Verif.Spec.Text

/-!
# Specification: the items of a document

A grammar of documents, written down as data: a document is a list of marks (tags, text, comments and so on), each
with its spelling and with the items it stands for. Nothing here depends on the scanner.
-/

namespace TW.Spec

/-- A character as it is written: the codes written for it, and the character meant. -/
structure Glyph where
  spelling : List UChar
  char : UChar
  deriving DecidableEq, Repr

/-- A character written as it is. -/
def Glyph.lit (c : UChar) : Glyph := ⟨[c], c⟩

/-- The codes of a text. -/
def spell (gs : List Glyph) : List UChar := gs.flatMap Glyph.spelling

/-- The characters meant by a text. -/
def meant (gs : List Glyph) : List UChar := gs.map Glyph.char

/-- Characters that the encoding has. -/
def Writable (e : Enc) (c : UChar) : Prop := c ≠ 0 ∧ c < 2 ^ 32 ∧ Direct e c

/-- What can be written in a token: a character that does not end the token, no ampersand and no carriage return, or a
reference. -/
def Glyph.Ok (e : Enc) (kind : Kind) (g : Glyph) : Prop :=
  (g.spelling = [g.char] ∧ Writable e g.char ∧ g.char ≠ 38 ∧ g.char ≠ 13 ∧ (g.char < 128 → kind.ends g.char = false)) ∨
  Reference g.spelling g.char

/-- A text for a token. -/
def TokenText (e : Enc) (kind : Kind) (gs : List Glyph) : Prop := ∀ g ∈ gs, g.Ok e kind

/-- White space, as the scanner sees it: all control characters but 5. -/
def Gap (c : UChar) : Prop := 1 ≤ c ∧ c ≤ 32 ∧ c ≠ 5

instance (c : UChar) : Decidable (Gap c) := inferInstanceAs (Decidable (_ ∧ _))

/-- White space. -/
def Gaps (cs : List UChar) : Prop := ∀ c ∈ cs, Gap c

/-- How a value is quoted. -/
inductive Quote where
  | dq | sq | bare
  deriving DecidableEq, Repr

/-- The quote. -/
def Quote.mark : Quote → List UChar
  | .dq => [34]
  | .sq => [39]
  | .bare => []

/-- The token between the quotes. -/
def Quote.kind : Quote → Kind
  | .dq => .dq
  | .sq => .sq
  | .bare => .word

/-- A value. -/
structure Val where
  quote : Quote
  text : List Glyph

/-- A value without quotes is not empty. -/
def Val.Ok (e : Enc) (v : Val) : Prop := TokenText e v.quote.kind v.text ∧ (v.quote = .bare → v.text ≠ [])

/-- The codes of a value. -/
def Val.spell (v : Val) : List UChar := v.quote.mark ++ TW.Spec.spell v.text ++ v.quote.mark

/-- An attribute, with the white space before it and around the equals sign. -/
structure Attr where
  lead : List UChar
  name : List Glyph
  before : List UChar
  behind : List UChar
  val : Val

/-- An attribute has white space before it and a name. -/
def Attr.Ok (e : Enc) (a : Attr) : Prop :=
  Gaps a.lead ∧ a.lead ≠ [] ∧ TokenText e .word a.name ∧ a.name ≠ [] ∧ Gaps a.before ∧ Gaps a.behind ∧ a.val.Ok e

/-- The codes of an attribute. -/
def Attr.spell (a : Attr) : List UChar :=
  a.lead ++ TW.Spec.spell a.name ++ a.before ++ [61] ++ a.behind ++ a.val.spell

/-- A part of a document type declaration. -/
inductive DocPart where
  /-- a value -/
  | val (v : Val)
  /-- an internal subset in brackets -/
  | subset (cs : List UChar)

/-- Parts of a document. -/
inductive Mark where
  /-- character data -/
  | text (gs : List Glyph)
  /-- `<name attributes>` or `<name attributes/>` -/
  | open_ (lead : List UChar) (name : List Glyph) (attrs : List Attr) (tail : List UChar) (im : Bool)
  /-- `</name>` -/
  | close (lead : List UChar) (name : List Glyph) (tail : List UChar)
  /-- `<!name parts>`, white space before each part -/
  | doctype (lead : List UChar) (name : List Glyph) (parts : List (List UChar × DocPart)) (tail : List UChar)
  /-- `<!--...-->` -/
  | comment (lead : List UChar) (cs : List UChar)
  /-- `<?...?>` -/
  | pi (lead : List UChar) (cs : List UChar)
  /-- `<![CDATA[...]]>` -/
  | cdata (lead : List UChar) (cs : List UChar)

/-- The codes of a part of a document type declaration. -/
def DocPart.spell : DocPart → List UChar
  | .val v => v.spell
  | .subset cs => [91] ++ cs ++ [93]

/-- The codes of a mark. -/
def Mark.spell : Mark → List UChar
  | .text gs => TW.Spec.spell gs
  | .open_ lead name attrs tail im =>
    [60] ++ lead ++ TW.Spec.spell name ++ attrs.flatMap Attr.spell ++ tail ++ (if im then [47, 62] else [62])
  | .close lead name tail => [60] ++ lead ++ [47] ++ TW.Spec.spell name ++ tail ++ [62]
  | .doctype lead name parts tail =>
    [60] ++ lead ++ [33] ++ TW.Spec.spell name ++ parts.flatMap (fun p => p.1 ++ p.2.spell) ++ tail ++ [62]
  | .comment lead cs => [60] ++ lead ++ codes "!--" ++ cs ++ codes "-->"
  | .pi lead cs => [60] ++ lead ++ codes "?" ++ cs ++ codes "?>"
  | .cdata lead cs => [60] ++ lead ++ codes "![CDATA[" ++ cs ++ codes "]]>"

/-- What the parts of a document type declaration must be. -/
def DocPart.Ok (e : Enc) : DocPart → Prop
  | .val v => v.Ok e
  | .subset cs => (∀ c ∈ cs, Writable e c) ∧ 93 ∉ cs

/-- What a mark must be. The first character of the name of a document type is none of those that make the mark something
else. -/
def Mark.Ok (e : Enc) : Mark → Prop
  | .text gs => TokenText e .content gs
  | .open_ lead name attrs tail _ =>
    Gaps lead ∧ TokenText e .word name ∧ name ≠ [] ∧ (∀ a ∈ attrs, a.Ok e) ∧ Gaps tail
  | .close lead name tail => Gaps lead ∧ TokenText e .word name ∧ Gaps tail
  | .doctype lead name parts tail =>
    Gaps lead ∧ TokenText e .word name ∧ (TW.Spec.spell name).head?.any (· ≠ 45) = true ∧
      (∀ p ∈ parts, Gaps p.1 ∧ p.1 ≠ [] ∧ p.2.Ok e) ∧ Gaps tail
  | .comment lead cs => Gaps lead ∧ (∀ c ∈ cs, Writable e c) ∧ ¬ codes "--" <:+: cs ∧ cs.getLast? ≠ some 45
  | .pi lead cs => Gaps lead ∧ (∀ c ∈ cs, Writable e c) ∧ 63 ∉ cs
  | .cdata lead cs => Gaps lead ∧ (∀ c ∈ cs, Writable e c) ∧ ¬ codes "]]]" <:+: cs ++ codes "]]" ∧ ¬ codes "]]>" <:+: cs

/-- An item: its type and its characters. -/
abbrev TItem := ElementType × List UChar

/-- The items of attributes. -/
def Attr.items (hdr : Bool) (a : Attr) : List TItem :=
  [(if hdr then .HeaderAttribName else .TagAttribName, meant a.name),
   (if hdr then .HeaderAttribValue else .TagAttribValue, meant a.val.text)]

/-- The items of a part of a document type declaration. -/
def DocPart.items : DocPart → List TItem
  | .val v => [(.DocAttribValue, meant v.text)]
  | .subset _ => []

/-- The items of a mark that is no text. -/
def Mark.items : Mark → List TItem
  | .open_ _ name attrs _ im =>
    (.OpenTag, meant name) :: attrs.flatMap (Attr.items false) ++ (if im then [(.CloseTagIm, [])] else [])
  | .close _ name _ => [(.CloseTag, meant name)]
  | .doctype _ name parts _ =>
    (.DocAttribValue, meant name) :: parts.flatMap (fun p => p.2.items) ++ [(.DocAttribEnd, [])]
  | _ => []

/-- White space at the start of text is dropped after a comment or document type declaration, and at the start of the
document. -/
def Mark.seeks : Mark → Bool
  | .doctype .. => true
  | .comment .. => true
  | _ => false

/-- A literal white space character. -/
def Glyph.white (g : Glyph) : Bool := decide (g.spelling = [g.char] ∧ Gap g.char)

/-- The item of a text: none if it is empty. `seek` tells if white space is dropped at its start. -/
def textItem (seek : Bool) (gs : List Glyph) : List TItem :=
  let gs := if seek then gs.dropWhile Glyph.white else gs
  if gs = [] then [] else [(.Content, meant gs)]

/-- The items of a list of marks; `gs` is the text collected so far. -/
def items : Bool → List Glyph → List Mark → List TItem
  | seek, gs, [] => textItem seek gs ++ [(.Exit, [])]
  | seek, gs, .text hs :: ms => items seek (gs ++ hs) ms
  | seek, gs, m :: ms => textItem seek gs ++ m.items ++ items m.seeks [] ms

/-- A document: white space, maybe an XML header (white space, attributes and white space), and marks. -/
structure Document where
  lead : List UChar
  header : Option (List UChar × List Attr × List UChar)
  body : List Mark

/-- The codes of a document. -/
def Document.spell (d : Document) : List UChar :=
  d.lead ++
  (match d.header with
   | some (lead, attrs, tail) => [60] ++ lead ++ codes "?xml" ++ attrs.flatMap Attr.spell ++ tail ++ codes "?>"
   | none => []) ++ d.body.flatMap Mark.spell

/-- The items of a document. -/
def Document.items (d : Document) : List TItem :=
  (match d.header with
   | some (_, attrs, _) => (.HeaderStart, codes "?xml") :: attrs.flatMap (Attr.items true) ++ [(.HeaderEnd, [])]
   | none => []) ++ TW.Spec.items true [] d.body

/-- Without header the document starts with a tag, a document type, a comment or a CDATA section. -/
def Mark.leads : Mark → Bool
  | .open_ .. => true
  | .doctype .. => true
  | .comment .. => true
  | .cdata .. => true
  | _ => false

/-- What a document must be. -/
def Document.Ok (e : Enc) (d : Document) : Prop :=
  Gaps d.lead ∧ (∀ m ∈ d.body, m.Ok e) ∧
  match d.header with
  | some (lead, attrs, tail) => Gaps lead ∧ (∀ a ∈ attrs, a.Ok e) ∧ Gaps tail
  | none => ∀ m ∈ d.body.head?, m.leads = true

/-- The bytes of a document. -/
def Document.bytes (e : Enc) (d : Document) : List Byte := d.spell.flatMap e.print

end TW.Spec
