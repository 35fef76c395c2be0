import Verif.Model.Basic

/-!
# Specification: XML declarations
-/

namespace TW.Spec

/-- White space characters: the control characters other than NUL, and the space. -/
def Blank (l : List Byte) : Prop := ∀ c ∈ l, 1 ≤ c ∧ c ≤ 32

/-- The attributes of an XML declaration. -/
inductive DeclName where
  | encoding | version | standalone
  deriving DecidableEq, Repr

/-- The name as text. -/
def DeclName.text : DeclName → List Byte
  | .encoding => [101, 110, 99, 111, 100, 105, 110, 103]
  | .version => [118, 101, 114, 115, 105, 111, 110]
  | .standalone => [115, 116, 97, 110, 100, 97, 108, 111, 110, 101]

/-- An attribute of an XML declaration, with the white space around the `=` and behind the value,
and the type of quote. -/
structure DeclAttr where
  name : DeclName
  ws1 : List Byte := []
  ws2 : List Byte := []
  double : Bool := true
  value : List Byte
  ws3 : List Byte := []

namespace DeclAttr

/-- The quote character. -/
def quote (a : DeclAttr) : Byte := if a.double then 34 else 39

/-- `name = "value" ` -/
def text (a : DeclAttr) : List Byte :=
  a.name.text ++ a.ws1 ++ [61] ++ a.ws2 ++ [a.quote] ++ a.value ++ [a.quote] ++ a.ws3

/-- White space is white, the value holds neither its quote nor NUL. -/
structure Plain (a : DeclAttr) : Prop where
  ws1 : Blank a.ws1
  ws2 : Blank a.ws2
  ws3 : Blank a.ws3
  value : ∀ c ∈ a.value, c ≠ 0 ∧ c ≠ a.quote

/-- White space is white, the value holds neither its quote nor NUL; the name of an encoding is not
empty. -/
structure Wf (a : DeclAttr) : Prop where
  ws1 : Blank a.ws1
  ws2 : Blank a.ws2
  ws3 : Blank a.ws3
  value : ∀ c ∈ a.value, c ≠ 0 ∧ c ≠ a.quote
  enc : a.name = .encoding → a.value ≠ []

theorem Wf.plain {a : DeclAttr} (h : a.Wf) : a.Plain := ⟨h.ws1, h.ws2, h.ws3, h.value⟩

end DeclAttr

/-- ` < ?xml attributes?` with white space. The `>` that follows is not needed to know the
encoding. -/
def declText (ws0 ws1 ws2 : List Byte) (attrs : List DeclAttr) : List Byte :=
  ws0 ++ [60] ++ ws1 ++ [63, 120, 109, 108] ++ ws2 ++ attrs.flatMap DeclAttr.text ++ [63]

/-- The encoding declared: the value of the last encoding attribute. -/
def declEncoding (attrs : List DeclAttr) : Option (List Byte) :=
  (attrs.filter (·.name = .encoding)).getLast?.map (·.value)

/-- A character with zero bytes before and after, as in the encodings of ASCII characters with
code units of several bytes. -/
def padded (before after : Nat) (c : Byte) : List Byte := List.replicate before 0 ++ c :: List.replicate after 0

/-- Four NUL bytes in a row. -/
def FourNulls (l : List Byte) : Prop := [0, 0, 0, 0] <:+: l

end TW.Spec
