import Verif.Spec.Tree
import Verif.Spec.Path

/-!
# Specification: what queries select in a document tree

The elements, attributes, contents and close tags of a tree in the order of the document, each with the elements from
the root to it.
-/

namespace TW.Spec

open Path

/-- A string of the application in the character set `e`. -/
def recode (app e : Enc) (x : List Byte) : List Byte := (decode app x).flatMap e.print

/-- An element with its attributes. -/
def element (app e : Enc) (n : List Byte) (as : List (List Byte × List Byte)) : Open :=
  ⟨recode app e n, as.map fun a => (recode app e a.1, recode app e a.2)⟩

/-- The elements, each given by the elements from the root to it. -/
def Nodes.elements (app e : Enc) (up : List Open) : Nodes → List (List Open)
  | .nil => []
  | .text _ ns => ns.elements app e up
  | .elem n as ks ns => (up ++ [element app e n as]) ::
      (ks.elements app e (up ++ [element app e n as]) ++ ns.elements app e up)

/-- The close tags, each with the elements from the root to the one closed and what is read for the tag. -/
def Nodes.closes (app e : Enc) (up : List Open) : Nodes → List (List Open × List Byte)
  | .nil => []
  | .text _ ns => ns.closes app e up
  | .elem n as ks ns => ks.closes app e (up ++ [element app e n as]) ++
      (up ++ [element app e n as], if ks.isNil then [] else recode app e n) :: ns.closes app e up

/-- The attributes `as` of an element with the attributes `before` before them: with the elements from the root, the last one with
the attributes before the attribute. -/
def attributesOf (app e : Enc) (up : List Open) (n : List Byte) (before : List (List Byte × List Byte)) :
    List (List Byte × List Byte) → List (List Open × List Byte × List Byte)
  | [] => []
  | a :: as => (up ++ [element app e n before], recode app e a.1, recode app e a.2) ::
      attributesOf app e up n (before ++ [a]) as

/-- The attributes. -/
def Nodes.attributes (app e : Enc) (up : List Open) : Nodes → List (List Open × List Byte × List Byte)
  | .nil => []
  | .text _ ns => ns.attributes app e up
  | .elem n as ks ns => attributesOf app e up n [] as ++
      ks.attributes app e (up ++ [element app e n as]) ++ ns.attributes app e up

/-- Character data that is not empty, with the elements it is in. -/
def content (e : Enc) (up : List Open) (cs : List UChar) : List (List Open × List Byte) :=
  if cs = [] then [] else [(up, cs.flatMap e.print)]

/-- The contents: character data joined up to the next tag. `cs` is the character data before the nodes, `tail` the one
behind. -/
def Nodes.contents (app e : Enc) (up : List Open) (cs tail : List UChar) : Nodes → List (List Open × List Byte)
  | .nil => content e up (cs ++ tail)
  | .text v ns => ns.contents app e up (cs ++ decode app v) tail
  | .elem n as ks ns => content e up cs ++ ks.contents app e (up ++ [element app e n as]) [] [] ++
      ns.contents app e up [] tail

/-- The root element as node. -/
def Tree.root (t : Tree) : Nodes := .elem t.name t.attrs t.kids .nil

/-- How often a query for close tags is answered at the close tag of an element. -/
def Path.Query.atClose (x : Query) (p : List Open) : Nat :=
  match x.final with
  | .closeTag desc => reaches x.steps desc p
  | _ => 0

/-- How often a query for attributes is answered at an attribute with a name. -/
def Path.Query.atAttribute (x : Query) (p : List Open) (nm : List Byte) : Nat :=
  match x.final with
  | .attribute desc name => if Step.accepts ⟨false, name⟩ nm then reaches x.steps desc p else 0
  | _ => 0

/-- How often a query for contents is answered at a content. -/
def Path.Query.atContent (x : Query) (p : List Open) : Nat :=
  match x.final with
  | .content desc => reaches x.steps desc p
  | _ => 0

/-- The sum for the queries with a type. -/
def total (xs : List Query) (ty : Int) (f : Query → Nat) : Nat := ((xs.filter (·.type = ty)).map f).sum

/-- The numbers of reports at items: in front of the first open tag, and for each open tag from it to the next one. -/
def perTag : List (Item × Nat) → Nat × List Nat
  | [] => (0, [])
  | (it, k) :: xs =>
    if it.1 = .OpenTag then (0, (k + (perTag xs).1) :: (perTag xs).2) else (k + (perTag xs).1, (perTag xs).2)

/-- The items of some types are those given, with the numbers of reports given, and there are no reports elsewhere. -/
def ReportedAt (types : List ElementType) (rs : List (Item × Nat)) (want : List (List Byte × Nat)) : Prop :=
  (rs.filter fun x => x.1.1 ∈ types).map (fun x => (x.1.2, x.2)) = want ∧ ∀ x ∈ rs, x.1.1 ∉ types → x.2 = 0

end TW.Spec
