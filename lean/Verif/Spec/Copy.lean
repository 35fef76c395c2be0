import Verif.Spec.Tree

/-!
# Specification: a program that copies a document

It reads items and makes a call of a printer for each.
-/

namespace TW.Spec

/-- The elements; `d` is the number of elements open. Content behind the root element is left away. A close tag of its own is kept, also if there
is nothing in the element: the empty value closes the open tag before. -/
def copyElements : Nat → List (ElementType × List Byte) → List PCall
  | d, (.OpenTag, n) :: is => .open_ n :: copyElements (d + 1) is
  | d, (.TagAttribName, n) :: is => .attr n :: copyElements d is
  | d, (.TagAttribValue, v) :: is => .value v :: copyElements d is
  | d, (.Content, v) :: is => if d = 0 then copyElements d is else .value v :: copyElements d is
  | d, (.CloseTag, _) :: is => .value [] :: .close :: copyElements (d - 1) is
  | d, (.CloseTagIm, _) :: is => .close :: copyElements (d - 1) is
  | _, _ => []

/-- The document type, then the elements. Content before is left away. -/
def copyDoctype : List (ElementType × List Byte) → List PCall
  | (.DocAttribValue, _) :: (.DocAttribValue, r) :: (.DocAttribEnd, _) :: is => .doctype (some r) none none :: copyElements 0 is
  | (.DocAttribValue, _) :: (.DocAttribValue, r) :: (.DocAttribValue, _) :: (.DocAttribValue, s) :: (.DocAttribEnd, _) :: is =>
    .doctype (some r) none (some s) :: copyElements 0 is
  | (.DocAttribValue, _) :: (.DocAttribValue, r) :: (.DocAttribValue, _) :: (.DocAttribValue, p) :: (.DocAttribValue, s) ::
      (.DocAttribEnd, _) :: is => .doctype (some r) (some p) (some s) :: copyElements 0 is
  | (.Content, _) :: is => copyDoctype is
  | is => copyElements 0 is

/-- The header, then the rest. -/
def copyDocument : List (ElementType × List Byte) → List PCall
  | (.HeaderStart, _) :: (.HeaderAttribName, _) :: (.HeaderAttribValue, _) :: (.HeaderAttribName, _) :: (.HeaderAttribValue, e) ::
      (.HeaderEnd, _) :: is => .header (some e) none :: copyDoctype is
  | (.HeaderStart, _) :: (.HeaderAttribName, _) :: (.HeaderAttribValue, _) :: (.HeaderAttribName, _) :: (.HeaderAttribValue, e) ::
      (.HeaderAttribName, _) :: (.HeaderAttribValue, s) :: (.HeaderEnd, _) :: is => .header (some e) (some s) :: copyDoctype is
  | is => copyDoctype is

end TW.Spec
