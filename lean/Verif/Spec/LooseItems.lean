import Verif.Spec.Loose

/-!
# Specification: the items of the documents that are accepted

Each item with the characters its text comes from and all that is behind these. Nothing here depends on the scanner.
-/

namespace TW.Spec.Loose

/-- The type of an item, and for an item with a text the characters of the token and what is behind them up to the end. -/
abbrev Item := ElementType × Option (List Byte × List Byte)

/-- The items of attributes with `r` behind them. White space before the equals sign is before a name that is empty. -/
def attrItems (hdr : Bool) : List Attr → List Byte → List Item
  | [], _ => []
  | a :: as, r =>
    (if hdr then .HeaderAttribName else .TagAttribName,
      some (a.name, (if a.name = [] then [] else a.before) ++ 61 :: a.behind ++ a.val.spell ++ as.flatMap Attr.spell ++ r)) ::
    (if hdr then .HeaderAttribValue else .TagAttribValue, some (a.val.text, a.val.quote.mark ++ as.flatMap Attr.spell ++ r)) ::
    attrItems hdr as r

/-- The items of a declaration with `r` behind it. -/
def partItems (tail r : List Byte) : List (List Byte × Part) → List Item
  | [] => [(.DocAttribEnd, none)]
  | (_, .word t) :: ps => (.DocAttribValue, some (t, spellParts ps tail ++ r)) :: partItems tail r ps
  | (_, .sq t) :: ps => (.DocAttribValue, some (t, 39 :: spellParts ps tail ++ r)) :: partItems tail r ps
  | (_, .dq t) :: ps => (.DocAttribValue, some (t, 34 :: spellParts ps tail ++ r)) :: partItems tail r ps
  | (_, .subset _) :: ps => partItems tail r ps

/-- The end of a tag. -/
def imSpell : Option (List Byte) → List Byte
  | none => [62]
  | some g => 47 :: g ++ [62]

/-- The items of a mark with `r` behind it. -/
def Mark.items (r : List Byte) : Mark → List Item
  | .open_ name attrs tail im =>
    (.OpenTag, some (name, attrs.flatMap Attr.spell ++ tail ++ imSpell im ++ r)) :: attrItems false attrs (tail ++ imSpell im ++ r) ++
      (match im with
       | none => []
       | some g => List.replicate (g.length + 1) (.CloseTagIm, none))
  | .close name tail => [(.CloseTag, some (name, tail ++ 62 :: r))]
  | .decl parts tail => partItems tail r parts
  | _ => []

/-- The item of a text with `r` behind it. -/
def textItems (seek : Bool) (t r : List Byte) : List Item :=
  let t' := if seek then t.dropWhile (fun a => decide (Gap a)) else t
  if t' = [] then [] else [(.Content, some (t', r))]

def Piece.items (p : Piece) (r : List Byte) : List Item := p.mark.items (p.text ++ r) ++ textItems p.mark.seeks p.text r

def pieceItems : List Piece → List Byte → List Item
  | [], _ => []
  | p :: ps, r => p.items (ps.flatMap Piece.spell ++ r) ++ pieceItems ps r

def Beginning.items (r : List Byte) : Beginning → List Item
  | .header _ attrs tail gap text =>
    (.HeaderStart, none) :: attrItems true attrs (tail ++ 63 :: gap ++ 62 :: text ++ r) ++ (.HeaderEnd, none) :: textItems true text r
  | .mark p => p.items r

/-- The items of a document; the null at the end counts as a character. -/
def Document.items (d : Document) : List Item :=
  (match d.content with
    | none => []
    | some (b, ps) => b.items (ps.flatMap Piece.spell ++ [0]) ++ pieceItems ps [0]) ++ [(.Exit, none)]

end TW.Spec.Loose
