import Verif.Spec.Grammar

/-!
# Specification: the documents that are accepted

A grammar of the documents the scanner takes without an error, on the ASCII values of the characters (255 for the
others). It tells what is accepted besides XML: names may be missing, values may be without quotes, tags need not match,
a comment or a CDATA section may contain what looks like its end. Nothing here depends on the scanner.
-/

namespace TW.Spec.Loose

/-- The characters of a token. -/
def Chars (kind : Kind) (t : List Byte) : Prop := ∀ a ∈ t, kind.ends a = false

/-- A value, maybe empty, also without quotes. -/
structure Val where
  quote : Quote
  text : List Byte
  deriving DecidableEq

def Val.Ok (v : Val) : Prop := Chars v.quote.kind v.text

def Val.spell (v : Val) : List Byte := v.quote.mark ++ v.text ++ v.quote.mark

/-- There is nothing to see of the value. -/
def Val.blank (v : Val) : Bool := v.quote = .bare && v.text = []

/-- An attribute, with the white space before it and around the equals sign. The name can be empty. -/
structure Attr where
  lead : List Byte
  name : List Byte
  before : List Byte
  behind : List Byte
  val : Val

def Attr.Ok (a : Attr) : Prop :=
  Gaps a.lead ∧ a.lead ≠ [] ∧ Chars .word a.name ∧ Gaps a.before ∧ Gaps a.behind ∧ a.val.Ok

def Attr.spell (a : Attr) : List Byte := a.lead ++ a.name ++ a.before ++ 61 :: a.behind ++ a.val.spell

/-- Attributes and the white space behind them. A value of which nothing is to be seen is the last one, with nothing behind
it. -/
def AttrsOk : List Attr → List Byte → Prop
  | [], tail => Gaps tail
  | a :: as, tail => a.Ok ∧ (a.val.blank = true → as = [] ∧ tail = []) ∧ AttrsOk as tail

/-- The number of `a` at the end of a text. -/
def trailing (a : Byte) (t : List Byte) : Nat := t.foldl (fun n x => if x = a then n + 1 else 0) 0

/-- A text up to the first `>` that ends it: `P` tells how many of the characters `a` have to be directly before this. -/
def Closed (a : Byte) (P : Nat → Prop) (t : List Byte) : Prop :=
  P (trailing a t) ∧ ∀ p s, t = p ++ 62 :: s → ¬ P (trailing a p)

/-- The end of a comment: an even number of dashes. -/
def dashes (n : Nat) : Prop := n ≠ 0 ∧ n % 2 = 0

/-- The end of a CDATA section: two brackets, or three, six and so on more. -/
def brackets (n : Nat) : Prop := n % 3 = 2

/-- A part of a declaration. -/
inductive Part where
  | word (t : List Byte)
  | sq (t : List Byte)
  | dq (t : List Byte)
  /-- an internal subset in brackets -/
  | subset (t : List Byte)

def Part.Ok : Part → Prop
  | .word t => Chars .word t ∧ t ≠ []
  | .sq t => Chars .sq t
  | .dq t => Chars .dq t
  | .subset t => 93 ∉ t

def Part.spell : Part → List Byte
  | .word t => t
  | .sq t => 39 :: t ++ [39]
  | .dq t => 34 :: t ++ [34]
  | .subset t => 91 :: t ++ [93]

def Part.isWord : Part → Bool
  | .word _ => true
  | _ => false

/-- The parts of a declaration with the white space before each of them, to the end. -/
def spellParts : List (List Byte × Part) → List Byte → List Byte
  | [], tail => tail ++ [62]
  | p :: ps, tail => p.1 ++ p.2.spell ++ spellParts ps tail

/-- A word is followed by white space or the end. -/
def PartsOk : List (List Byte × Part) → List Byte → Prop
  | [], tail => Gaps tail
  | p :: ps, tail => Gaps p.1 ∧ p.2.Ok ∧
      (p.2.isWord = true → (spellParts ps tail).head?.any (fun a => Gap a ∨ a = 62) = true) ∧ PartsOk ps tail

/-- What is behind the `<` and white space. -/
inductive Mark where
  /-- A tag with attributes. `im` is the white space between the slash and the end. -/
  | open_ (name : List Byte) (attrs : List Attr) (tail : List Byte) (im : Option (List Byte))
  | close (name : List Byte) (tail : List Byte)
  /-- A declaration. -/
  | decl (parts : List (List Byte × Part)) (tail : List Byte)
  /-- A comment; the text has the dashes of the end, too. -/
  | comment (t : List Byte)
  /-- A processing instruction. -/
  | pi (t : List Byte)
  /-- A CDATA section; the text has the brackets of the end, too. -/
  | cdata (t : List Byte)

def Mark.spell : Mark → List Byte
  | .open_ name attrs tail im => name ++ attrs.flatMap Attr.spell ++ tail ++
      (match im with
       | none => [62]
       | some g => 47 :: g ++ [62])
  | .close name tail => 47 :: name ++ tail ++ [62]
  | .decl parts tail => 33 :: spellParts parts tail
  | .comment t => codes "!--" ++ t ++ [62]
  | .pi t => 63 :: t ++ [63, 62]
  | .cdata t => codes "![CDATA[" ++ t ++ [62]

/-- The rules. A tag without a name has nothing else; `first` is the mark a document without a header begins with. -/
def Mark.Ok (first : Bool) : Mark → Prop
  | .open_ name attrs tail im => Chars .word name ∧ AttrsOk attrs tail ∧ (∀ g ∈ im, Gaps g) ∧
      (name = [] → attrs = [] ∧ tail = [] ∧ (first = false → im = none))
  | .close name tail => first = false ∧ Chars .word name ∧ Gaps tail
  | .decl parts tail => PartsOk parts tail ∧ (spellParts parts tail).head?.any (fun a => a ≠ 91 ∧ a ≠ 45) = true
  | .comment t => Closed 45 dashes t
  | .pi t => first = false ∧ 63 ∉ t
  | .cdata t => Closed 93 brackets t

/-- The types of the items of attributes. -/
def attrTypes (hdr : Bool) (as : List Attr) : List ElementType :=
  as.flatMap fun _ => [if hdr then .HeaderAttribName else .TagAttribName, if hdr then .HeaderAttribValue else .TagAttribValue]

def Part.types : Part → List ElementType
  | .subset _ => []
  | _ => [.DocAttribValue]

/-- The types of the items of a mark. Each character of white space behind the slash gives another end of the tag. -/
def Mark.types : Mark → List ElementType
  | .open_ _ attrs _ im => .OpenTag :: attrTypes false attrs ++
      (match im with
       | none => []
       | some g => List.replicate (g.length + 1) .CloseTagIm)
  | .close _ _ => [.CloseTag]
  | .decl parts _ => parts.flatMap (fun p => p.2.types) ++ [.DocAttribEnd]
  | _ => []

/-- White space is dropped behind it. -/
def Mark.seeks : Mark → Bool
  | .decl .. => true
  | .comment .. => true
  | _ => false

/-- A mark with the white space behind the `<`, and the text behind the mark. -/
structure Piece where
  lead : List Byte
  mark : Mark
  text : List Byte

def Piece.Ok (first : Bool) (p : Piece) : Prop := Gaps p.lead ∧ p.mark.Ok first ∧ Chars .content p.text

def Piece.spell (p : Piece) : List Byte := 60 :: p.lead ++ p.mark.spell ++ p.text

/-- The items of a text. -/
def textTypes (seek : Bool) (t : List Byte) : List ElementType :=
  if (if seek then t.dropWhile (fun a => decide (Gap a)) else t) = [] then [] else [.Content]

def Piece.types (p : Piece) : List ElementType := p.mark.types ++ textTypes p.mark.seeks p.text

/-- What a document begins with. -/
inductive Beginning where
  /-- `<?xml attributes ? >` and a text: white space behind the `<`, behind the attributes and behind the question mark. -/
  | header (lead : List Byte) (attrs : List Attr) (tail gap text : List Byte)
  | mark (p : Piece)

def Beginning.Ok : Beginning → Prop
  | .header lead attrs tail gap text => Gaps lead ∧ AttrsOk attrs tail ∧ Gaps gap ∧ Chars .content text
  | .mark p => p.Ok true

def Beginning.spell : Beginning → List Byte
  | .header lead attrs tail gap text => 60 :: lead ++ codes "?xml" ++ attrs.flatMap Attr.spell ++ tail ++ 63 :: gap ++ 62 :: text
  | .mark p => p.spell

def Beginning.types : Beginning → List ElementType
  | .header _ attrs _ _ text => .HeaderStart :: attrTypes true attrs ++ .HeaderEnd :: textTypes true text
  | .mark p => p.types

/-- A document: white space, and if there is anything else a beginning and marks with texts. -/
structure Document where
  lead : List Byte
  content : Option (Beginning × List Piece)

def Document.Ok (d : Document) : Prop := Gaps d.lead ∧ ∀ c ∈ d.content, c.1.Ok ∧ ∀ p ∈ c.2, p.Ok false

def Document.spell (d : Document) : List Byte :=
  d.lead ++ match d.content with
    | none => []
    | some (b, ps) => b.spell ++ ps.flatMap Piece.spell

def Document.types (d : Document) : List ElementType :=
  (match d.content with
    | none => []
    | some (b, ps) => b.types ++ ps.flatMap Piece.types) ++ [.Exit]

end TW.Spec.Loose
