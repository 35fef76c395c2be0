import Verif.Spec.Units
import Verif.Model.Stm
import Verif.Spec.Scan

/-!
# Specification: the text of items

The document is seen as a sequence of characters. A token is the text up to the first character that
ends it; its value is the text with line ends normalised and references replaced.
-/

namespace TW.Spec

/-- A character of a document: its bytes, its code and its ASCII value (255 for other characters). -/
structure Ch where
  bytes : List Byte
  code : UChar
  asc : Byte
  deriving DecidableEq, Repr

/-- The character that starts at `k`. -/
def chAt (e : Enc) (f : Nat → Byte) (k : Nat) : Ch :=
  { bytes := slice f k (ulen e f k), code := uval e f k, asc := uasc e f k }

/-- `n` characters, the first starts at `k`. -/
def chars (e : Enc) (f : Nat → Byte) : Nat → Nat → List Ch
  | _, 0 => []
  | k, n + 1 => chAt e f k :: chars e f (k + ulen e f k) n

/-- A character as it is delivered in the encoding `out`: the same bytes if this is the encoding of
the document. -/
def Ch.deliver (e out : Enc) (c : Ch) : List Byte := if e = out then c.bytes else out.print c.code

/-- The kinds of tokens with text. -/
inductive Kind where
  | content | word | sq | dq
  deriving DecidableEq, Repr

/-- The characters that end a token. -/
def Kind.ends : Kind → Byte → Bool
  | .content, a => a = 0 || a = 60
  | .sq, a => a = 0 || a = 60 || a = 39
  | .dq, a => a = 0 || a = 60 || a = 34
  | .word, a => (a ≤ 32 && a ≠ 5) || [33, 34, 39, 47, 60, 61, 62, 63, 91, 93].contains a

/-- The kinds of the tokens of a type. -/
def kindsOf : ElementType → List Kind
  | .Content => [.content]
  | .OpenTag | .CloseTag | .TagAttribName | .HeaderAttribName => [.word]
  | .TagAttribValue | .HeaderAttribValue | .DocAttribValue => [.word, .sq, .dq]
  | _ => []

/-- The character before `p` is `a`. -/
def Before (e : Enc) (f : Nat → Byte) (a : Byte) (p : Nat) : Prop :=
  ∃ q, q + ulen e f q = p ∧ uasc e f q = a

/-- What is before a token of type `type` and kind `kind` that starts at `p`: a quoted string starts behind
its quote, an unquoted value does not start with a quote, and content starts behind a `>`, maybe with
white space in between. -/
def Lead (e : Enc) (f : Nat → Byte) (type : ElementType) (kind : Kind) (p : Nat) : Prop :=
  match kind with
  | .dq => Before e f 34 p
  | .sq => Before e f 39 p
  | .content => ∃ q j, Before e f 62 q ∧ offs e f q j = p ∧ ∀ i, i < j → White (uasc e f (offs e f q i))
  | .word => type ∈ [.TagAttribValue, .HeaderAttribValue, .DocAttribValue] →
      uasc e f p ≠ 34 ∧ uasc e f p ≠ 39

/-- There is a token of type `type` and kind `kind` with the `l` characters that start at `p`: it starts at
a character of the document, ends before the first character that ends such a token, and has in front
of it what introduces it. -/
structure TokenAt (e : Enc) (f : Nat → Byte) (type : ElementType) (kind : Kind) (p l : Nat) : Prop where
  has : kind ∈ kindsOf type
  start : ∃ j, p = offs e f 0 j
  lead : Lead e f type kind p
  inner : ∀ c ∈ chars e f p l, kind.ends c.asc = false
  stop : kind.ends (uasc e f (offs e f p l)) = true

/-- The predefined entities. `nbsp` stands for a blank here. -/
def entities : List (String × UChar) :=
  [("quot", 34), ("amp", 38), ("apos", 39), ("lt", 60), ("gt", 62), ("nbsp", 32)]

/-- The ASCII codes of a string. -/
def codes (s : String) : List Byte := s.toList.map Char.toNat

/-- The value of a decimal digit. -/
def decDigit (a : Byte) : Option Nat := if 48 ≤ a ∧ a ≤ 57 then some (a - 48) else none

/-- The value of a hexadecimal digit. -/
def hexaDigit (a : Byte) : Option Nat :=
  if 48 ≤ a ∧ a ≤ 57 then some (a - 48)
  else if 65 ≤ a ∧ a ≤ 70 then some (a - 65 + 10)
  else if 97 ≤ a ∧ a ≤ 102 then some (a - 97 + 10)
  else none

/-- The number written with the digits `ds` in base `base`, after the number `v`. -/
def numeral (base : Nat) (digit : Byte → Option Nat) : List Byte → Nat → Option Nat
  | [], v => some v
  | d :: ds, v => (digit d).bind fun x => numeral base digit ds (v * base + x)

/-- `as` is a reference to the character `c`: `&name;`, `&#digits;` or `&#xdigits;`. -/
inductive Reference : List Byte → UChar → Prop where
  | named (s : String) (c : UChar) : (s, c) ∈ entities → Reference (38 :: codes s ++ [59]) c
  | dec (ds : List Byte) (c : UChar) : 1 ≤ ds.length → ds.length ≤ 15 → numeral 10 decDigit ds 0 = some c →
      c ≤ 0xFFFFFFFF → Reference (38 :: 35 :: ds ++ [59]) c
  | hex (ds : List Byte) (c : UChar) : 1 ≤ ds.length → ds.length ≤ 15 → numeral 16 hexaDigit ds 0 = some c →
      c ≤ 0xFFFFFFFF → Reference (38 :: 35 :: 120 :: ds ++ [59]) c

/-- ASCII characters that can be in the name of an entity. -/
def nameChar (a : Byte) : Bool :=
  33 ≤ a && a < 128 && ![33, 34, 38, 39, 45, 47, 59, 60, 61, 62, 63, 91, 93].contains a

/-- `as` starts with an ampersand that starts no reference if the character `next` follows. -/
inductive Lone : List Byte → Byte → Prop where
  | name (ns : List Byte) (next : Byte) : ns.length ≤ 15 → (∀ a ∈ ns, nameChar a = true) → ns.head? ≠ some 35 →
      next ≠ 59 → (nameChar next = false ∨ ns.length = 15) → Lone (38 :: ns) next
  | number (ds : List Byte) (next : Byte) : ds.length ≤ 16 → (∀ a ∈ ds, (decDigit a).isSome = true) →
      (decDigit next = none ∨ ds.length = 16) → (next ≠ 59 ∨ ds.length = 16) → (ds = [] → next ≠ 120) →
      Lone (38 :: 35 :: ds) next

/-- Malformed references for which the delivered characters are not the characters of the text: `as`
is delivered as `ds` if `next` follows. An `x` is lost, the semicolon behind a number that is too
large is delivered twice, a number without digits is a null, and a name that is not predefined is
`user`, what is found in the map of the user. -/
inductive Garbled (user : Option UChar) : List Byte → Byte → List UChar → Prop where
  | hex (ds : List Byte) (next : Byte) : ds.length ≤ 16 → (∀ a ∈ ds, (hexaDigit a).isSome = true) →
      (hexaDigit next = none ∨ ds.length = 16) → (next ≠ 59 ∨ ds.length = 16) →
      Garbled user (38 :: 35 :: 120 :: ds) next (38 :: 35 :: ds)
  | bigDec (ds : List Byte) (v : Nat) : ds.length ≤ 15 → numeral 10 decDigit ds 0 = some v → 0xFFFFFFFF < v →
      Garbled user (38 :: 35 :: ds) 59 (38 :: 35 :: ds ++ [59])
  | bigHex (ds : List Byte) (v : Nat) : ds.length ≤ 15 → numeral 16 hexaDigit ds 0 = some v → 0xFFFFFFFF < v →
      Garbled user (38 :: 35 :: 120 :: ds) 59 (38 :: 35 :: ds ++ [59])
  | noDec (next : Byte) : Garbled user [38, 35, 59] next [0]
  | noHex (next : Byte) : Garbled user [38, 35, 120, 59] next [0]
  | user (ns : List Byte) (c : UChar) (next : Byte) : ns.length ≤ 15 → (∀ a ∈ ns, nameChar a = true) →
      ns.head? ≠ some 35 → ns ∉ entities.map (fun x => codes x.1) → user = some c →
      Garbled user (38 :: ns ++ [59]) next [c]

/-- A piece of text: a character, a reference, an ampersand that is no reference with the characters
looked at behind it, or a malformed reference delivered as other characters. -/
inductive Seg where
  | ch (c : Ch)
  | ref (cs : List Ch) (c : UChar)
  | lone (cs : List Ch)
  | odd (cs : List Ch) (ds : List UChar)

/-- The characters of a piece. -/
def Seg.text : Seg → List Ch
  | .ch c => [c]
  | .ref cs _ => cs
  | .lone cs => cs
  | .odd cs _ => cs

/-- The ASCII value of the first character of the pieces, `next` if there is none. -/
def firstOf (next : Byte) (ss : List Seg) : Byte := ((ss.flatMap Seg.text).map Ch.asc).headD next

/-- The pieces are what they say, if `next` follows. -/
def SegsOk (user : Option UChar) (next : Byte) : List Seg → Prop
  | [] => True
  | .ch c :: ss => c.asc ≠ 38 ∧ SegsOk user next ss
  | .ref cs c :: ss => Reference (cs.map Ch.asc) c ∧ SegsOk user next ss
  | .lone cs :: ss => Lone (cs.map Ch.asc) (firstOf next ss) ∧ SegsOk user next ss
  | .odd cs ds :: ss => Garbled user (cs.map Ch.asc) (firstOf next ss) ds ∧ SegsOk user next ss

/-- What a piece contributes to the value: a carriage return or line feed of the document, or bytes. -/
inductive Atom where
  | cr | lf
  | bytes (bs : List Byte)

/-- The contribution of a piece. The carriage return and the line feed of a reference are no line end. -/
def Seg.atom (e out : Enc) : Seg → Atom
  | .ch c => if c.asc = 13 then .cr else if c.asc = 10 then .lf else .bytes (c.deliver e out)
  | .ref _ c => .bytes (out.print c)
  | .lone cs => .bytes ((cs.map Ch.asc).flatMap out.print)
  | .odd _ ds => .bytes (ds.flatMap out.print)

/-- Normalise line ends: CR LF and CR become LF. -/
def lines (out : Enc) : List Atom → List Byte
  | [] => []
  | .cr :: .lf :: as => out.print 10 ++ lines out as
  | .cr :: as => out.print 10 ++ lines out as
  | .lf :: as => out.print 10 ++ lines out as
  | .bytes bs :: as => bs ++ lines out as

/-- The value of a text: line ends are normalised, references replaced, the rest unchanged. -/
def value (e out : Enc) (ss : List Seg) : List Byte := lines out (ss.map (Seg.atom e out))

end TW.Spec
