import Verif.Spec.Grammar
import Verif.Spec.Items
import Verif.Spec.Path

/-!
# What the example programs should write
-/

namespace TW.Spec

/-- The names of the types of items, as their documentation lists them. -/
def typeNames : List (ElementType × String) :=
  [(.None, "None"), (.ErrorOccurred, "ErrorOccurred"), (.HeaderStart, "HeaderStart"), (.HeaderAttribName, "HeaderAttribName"),
   (.HeaderAttribValue, "HeaderAttribValue"), (.HeaderEnd, "HeaderEnd"), (.DocAttribValue, "DocAttribValue"),
   (.DocAttribEnd, "DocAttribEnd"), (.TagAttribName, "TagAttribName"), (.TagAttribValue, "TagAttribValue"), (.OpenTag, "OpenTag"),
   (.CloseTag, "CloseTag"), (.CloseTagIm, "CloseTagIm"), (.Content, "Content"), (.Exit, "Exit")]

/-- One line for each item: its type, a space and its text. -/
def report (items : List (ElementType × List Byte)) : List Byte :=
  items.flatMap fun i => (typeNames.filter fun x => x.1 = i.1).flatMap (fun x => codes x.2) ++ codes " " ++ i.2 ++ codes "\n"

/-- The lines of a document in an encoding: one for each item but the end. -/
def reportOf (output : Enc) (d : Document) : List Byte := report (d.items.dropLast.map fun i => (i.1, i.2.flatMap output.print))

/-- What `XMLPathSelect.cpp` should write for items: a line for the value of each attribute `name` and `street` of a root element
`address`. The elements that are open, from the root on, and the item before are given. -/
def addressLines : List (List Byte) → Option (ElementType × List Byte) → List (ElementType × List Byte) → List Byte
  | _, _, [] => []
  | path, prev, it :: items =>
    (if path = [codes "address"] ∧ it.1 = .TagAttribValue then
      if prev = some (.TagAttribName, codes "name") then codes "1: TagAttribValue" ++ it.2 ++ codes "\n"
      else if prev = some (.TagAttribName, codes "street") then codes "2: TagAttribValue" ++ it.2 ++ codes "\n"
      else []
    else []) ++ addressLines (Path.after path it) (some it) items

/-- A line with the hexadecimal numeral for each of the characters. -/
inductive HexLines : List UChar → List Byte → Prop
  | nil : HexLines [] []
  | cons {c : UChar} {h : List Byte} {cs : List UChar} {out : List Byte} : IsHex h c → HexLines cs out → HexLines (c :: cs) (h ++ codes "\n" ++ out)

end TW.Spec
