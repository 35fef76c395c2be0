import Verif.Spec.Units

/-!
# Specification: printing of documents
-/

namespace TW.Spec

/-- The characters of a text up to the first NUL character. -/
def decode (e : Enc) (bs : List Byte) : List UChar :=
  ((List.range (bs.length + 1)).map fun n => uval e (strm bs) (offs e (strm bs) 0 n)).takeWhile (· ≠ 0)

/-- The characters of an ASCII text. -/
def ascii (s : String) : List UChar := s.toList.map Char.toNat

/-- How a character is written in content. -/
def escContent (c : UChar) : List UChar :=
  if c = 60 then ascii "&lt;" else if c = 62 then ascii "&gt;" else if c = 38 then ascii "&amp;"
  else if c = 8 then ascii "&#8;" else [c]

/-- How a character is written in an attribute value. -/
def escAttr (c : UChar) : List UChar :=
  if c = 39 then ascii "&apos;" else if c = 34 then ascii "&quot;" else if c = 9 then ascii "&#9;"
  else if c = 10 then ascii "&#10;" else if c = 13 then ascii "&#13;" else escContent c

/-- Calls of the interface of a printer. `copy` goes on with a copy of the printer (the argument is
the initial content of memory it allocates). -/
inductive PCall where
  | header (encoding standalone : Option (List Byte))
  | doctype (rootid publicid systemid : Option (List Byte))
  | exit
  | open_ (name : List Byte)
  | attr (name : List Byte)
  | value (v : List Byte)
  | close
  | reset (subDocument : Bool)
  | copy (mem : Nat → Byte)

/-- Pieces of a printed document. -/
inductive Piece where
  /-- XML declaration. -/
  | header (encoding standalone : Option (List Byte))
  /-- `<!DOCTYPE` declaration. -/
  | doctype (rootid : List Byte) (publicid systemid : Option (List Byte))
  /-- `<name` -/
  | tag (name : List Byte)
  /-- ` name=` -/
  | attr (name : List Byte)
  /-- `"value"` -/
  | quoted (v : List Byte)
  /-- `>` -/
  | gt
  /-- character data -/
  | text (v : List Byte)
  /-- `/>` -/
  | slashGt
  /-- `</name>` -/
  | endTag (name : List Byte)
  /-- line break -/
  | newline

/-- Where the printer is: before the document, between tags, behind the name or an attribute of an
open tag, or behind an attribute name. -/
inductive Place where
  | start | content | tag | attr
  deriving DecidableEq, Repr

/-- The document so far: the place and the names of the tags not closed, the last first. -/
structure Doc where
  place : Place
  tags : List (List Byte)

/-- A new document. -/
def Doc.init (sub : Bool) : Doc := { place := if sub then .content else .start, tags := [] }

/-- Leave the open tag. -/
def leave : Place → Option (List Piece)
  | .start => none
  | .content => some []
  | .tag => some [.gt]
  | .attr => some [.gt]

/-- The effect of a call: what it adds, and the new document; `none` if it is rejected. -/
def docStep (d : Doc) : PCall → Option (List Piece × Doc)
  | .header e s => if d.place = .start then some ([.header e s], { d with place := .content }) else none
  | .doctype none _ _ => some ([], d)
  | .doctype (some _) (some _) none => none
  | .doctype (some r) p s => some ([.doctype r p s], d)
  | .exit => (leave d.place).map fun ps => (ps, { d with place := .content })
  | .open_ n => (leave d.place).map fun ps => (ps ++ [.tag n], { place := .tag, tags := n :: d.tags })
  | .attr n => if d.place = .tag then some ([.attr n], { d with place := .attr }) else none
  | .value v =>
    if d.place = .attr then some ([.quoted v], { d with place := .tag })
    else (leave d.place).map fun ps => (ps ++ [.text v], { d with place := .content })
  | .close =>
    match d.tags with
    | [] => none
    | n :: ns =>
      let last := if ns = [] then [Piece.newline] else []
      if n = [] then none
      else if d.place = .tag then some (.slashGt :: last, { place := .content, tags := ns })
      else if d.place = .content then some (.endTag n :: last, { place := .content, tags := ns })
      else none
  | .reset sub => some ([], Doc.init sub)
  | .copy _ => some ([], d)

/-- The effect of calls: which are accepted, the pieces printed, and the document at the end. -/
def docRun : List PCall → Doc → List Bool × List Piece × Doc
  | [], d => ([], [], d)
  | c :: cs, d =>
    match docStep d c with
    | none => let (rs, ps, d') := docRun cs d; (false :: rs, ps, d')
    | some (ps, d1) => let (rs, ps', d') := docRun cs d1; (true :: rs, ps ++ ps', d')

/-- The part of an optional string before its first NUL byte. -/
def untilNul (s : List Byte) : List Byte := s.takeWhile (· ≠ 0)

/-- Fixed ASCII text of the headers, which the printer reads in the encoding `app` (see C60). -/
def fixed (app : Enc) (s : String) : List UChar := decode app (ascii s)

/-- The encoding named in a header. -/
def encodingText (app : Enc) : Option (List Byte) → List UChar
  | some e => decode app (untilNul e)
  | none => fixed app "UTF-8"

/-- The characters of a piece. Strings are in the encoding `app`; those without length end at the
first NUL byte. -/
def Piece.chars (app : Enc) : Piece → List UChar
  | .header e s => fixed app "<?xml version=\"1.0\" encoding=\"" ++
      encodingText app e ++
      (match s with
       | some s => fixed app "\" standalone=\"" ++ decode app (untilNul s)
       | none => []) ++ fixed app "\"?>\n"
  | .doctype r p s => fixed app "<!DOCTYPE " ++ decode app (untilNul r) ++
      (match p, s with
       | some p, some s => fixed app " PUBLIC \"" ++ decode app (untilNul p) ++ fixed app "\" \"" ++ decode app (untilNul s) ++ fixed app "\">"
       | _, some s => fixed app " SYSTEM \"" ++ decode app (untilNul s) ++ fixed app "\">"
       | _, none => fixed app ">")
  | .tag n => ascii "<" ++ decode app n
  | .attr n => ascii " " ++ decode app n ++ ascii "="
  | .quoted v => ascii "\"" ++ (decode app v).flatMap escAttr ++ ascii "\""
  | .gt => ascii ">"
  | .text v => (decode app v).flatMap escContent
  | .slashGt => ascii "/>"
  | .endTag n => ascii "</" ++ decode app n ++ ascii ">"
  | .newline => ascii "\n"

/-- The header as it should be: the fixed parts are ASCII text whatever the encoding of the
application. -/
def headerText (app : Enc) (e s : Option (List Byte)) : List UChar :=
  ascii "<?xml version=\"1.0\" encoding=\"" ++
    (match e with
     | some e => decode app (untilNul e)
     | none => ascii "UTF-8") ++
    (match s with
     | some s => ascii "\" standalone=\"" ++ decode app (untilNul s)
     | none => []) ++ ascii "\"?>\n"

/-- The document type as it should be. -/
def doctypeText (app : Enc) (r : List Byte) (p s : Option (List Byte)) : List UChar :=
  ascii "<!DOCTYPE " ++ decode app (untilNul r) ++
    (match p, s with
     | some p, some s => ascii " PUBLIC \"" ++ decode app (untilNul p) ++ ascii "\" \"" ++ decode app (untilNul s) ++ ascii "\">"
     | _, some s => ascii " SYSTEM \"" ++ decode app (untilNul s) ++ ascii "\">"
     | _, none => ascii ">")

/-- The strings of a call. -/
def PCall.strings : PCall → List (List Byte)
  | .header e s => e.toList ++ s.toList
  | .doctype r p s => r.toList ++ p.toList ++ s.toList
  | .open_ n => [n]
  | .attr n => [n]
  | .value v => [v]
  | _ => []

/-- Upper bound for the memory for the names of the tags opened. -/
def nameNeed : List PCall → Nat
  | [] => 0
  | .open_ n :: cs => n.length + 16 + nameNeed cs
  | _ :: cs => nameNeed cs

/-- ASCII text is the same in this encoding. -/
def AsciiBased : Enc → Prop
  | .utf8 => True
  | .isolatin _ => True
  | _ => False

/-- Character data without markup: no `<`, no `>`, and `&` only as the start of a reference.
`bad` are further characters not allowed. -/
inductive SafeText (bad : List UChar) : List UChar → Prop where
  | nil : SafeText bad []
  | char (c : UChar) (cs : List UChar) : c ∉ [38, 60, 62] → c ∉ bad → SafeText bad cs → SafeText bad (c :: cs)
  | ref (r cs : List UChar) : r ≠ [] → (∀ c ∈ r, 48 ≤ c ∧ c ≤ 57 ∨ 97 ≤ c ∧ c ≤ 122 ∨ c = 35) → SafeText bad cs →
      SafeText bad (38 :: r ++ 59 :: cs)

/-- Every attribute name is followed by a quoted value. -/
def Valued (ps : List Piece) : Prop :=
  ∀ i n, ps[i]? = some (.attr n) → ∃ v, ps[i + 1]? = some (.quoted v)

/-- A program that gives a value to an attribute before it goes on; calls that are rejected may
come between. `b` tells if a value is missing. -/
def GivesValues : Bool → List PCall → Prop
  | b, [] => b = false
  | _, .attr _ :: cs => GivesValues true cs
  | _, .value _ :: cs => GivesValues false cs
  | b, .header _ _ :: cs => GivesValues b cs
  | b, .close :: cs => GivesValues b cs
  | b, .copy _ :: cs => GivesValues b cs
  | b, _ :: cs => b = false ∧ GivesValues false cs

end TW.Spec
