import Verif.Spec.Grammar
import Verif.Spec.Header

/-!
# Specification: the encoding a document declares
-/

namespace TW.Spec

/-- The encoding declared, in the items of a document: the value of the last header attribute with the name `encoding`. -/
def declared : List TItem → Option (List UChar)
  | (.HeaderAttribName, name) :: (.HeaderAttribValue, value) :: rest =>
    match declared rest with
    | some x => some x
    | none => if name = codes "encoding" then some value else none
  | _ :: rest => declared rest
  | [] => none

/-- An attribute of an XML declaration as XML defines it: one of the three names and a value in quotes, written with
ASCII characters; the name of the encoding is not empty and written without references. -/
def Attr.Plain (a : Attr) : Prop :=
  (∃ name : DeclName, a.name = name.text.map Glyph.lit ∧
    (name = .encoding → a.val.text ≠ [] ∧ ∀ g ∈ a.val.text, g.spelling = [g.char])) ∧
  a.val.quote ≠ .bare ∧ ∀ c ∈ TW.Spec.spell a.val.text, c < 128

/-- Letters and the underscore. -/
def initial (c : UChar) : Bool := decide ((65 ≤ c ∧ c ≤ 90) ∨ (97 ≤ c ∧ c ≤ 122) ∨ c = 95)

/-- A document that begins with a plain XML declaration, or with a tag whose name begins with a letter or an underscore. -/
def Document.Plain (d : Document) : Prop :=
  match d.header with
  | some (_, attrs, _) => ∀ a ∈ attrs, a.Plain
  | none => ∃ lead name attrs tail im ms, d.body = .open_ lead name attrs tail im :: ms ∧ (TW.Spec.spell name).head?.any initial = true

end TW.Spec
