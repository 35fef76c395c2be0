import Verif.Spec.Path

/-!
# Path expressions with ranges

Independent of the automaton and of the selector.
-/

namespace TW.Spec.Path

open TW.Path

/-- A range in an expression: `TO(b)`, `FROM(a)`, `RANGE(a,b)` or `INDEX(i)`. -/
inductive Range where
  | to (b : Int)
  | «from» (a : Int)
  | range (a b : Int)
  | index (i : Int)
  deriving DecidableEq, Repr

/-- The call for a range. -/
def Range.call : Range → PElem.Call
  | .to b => .to b
  | .from a => .from' a
  | .range a b => .range a b
  | .index i => .index i

/-- The bounds of a range. -/
def Range.bounds : Range → Int × Int
  | .to b => (0, b)
  | .from a => (a, 2147483646)
  | .range a b => (a, b)
  | .index i => (i, i)

/-- The upper bound is not negative, and smaller than the biggest integer. -/
def Range.Ok (r : Range) : Prop := 0 ≤ r.bounds.2 ∧ r.bounds.2 < 2147483647

instance (r : Range) : Decidable r.Ok := inferInstanceAs (Decidable (0 ≤ r.bounds.2 ∧ r.bounds.2 < 2147483647))

/-- A further range. It is the intersection, if the further range does not bring both a smaller end and a bigger begin, see
`C79_ranges_false`. -/
def narrowed (p x : Int × Int) : Int × Int :=
  if x.2 < p.2 then (p.1, x.2) else if p.1 < x.1 then (x.1, p.2) else p

/-- The bounds of several ranges. -/
def bounds : List Range → Option (Int × Int)
  | [] => none
  | r :: rs => some (rs.foldl (fun p r => narrowed p r.bounds) r.bounds)

/-- The ranges hold for a content behind `n` others: this one has the number `2 n + 1`, see `C45_ranges_false`. -/
def holds (rs : List Range) (n : Nat) : Bool :=
  match bounds rs with
  | none => true
  | some (a, b) => a ≤ 2 * n + 1 ∧ 2 * n + 1 ≤ b

/-- A query with ranges. -/
structure Ranged where
  query : Query
  ranges : List Range
  deriving DecidableEq, Repr

/-- The calls defining it. -/
def Ranged.calls (x : Ranged) : List PElem.Call :=
  x.query.steps.flatMap CStep.calls ++ x.query.final.calls ++ x.ranges.map Range.call ++ [.assign x.query.type]

/-- The numbers of contents come so far in the document and in every open element, the innermost last: those directly in it, and
those in it and in the elements in it. -/
abbrev Sums := List (Nat × Nat)

/-- The numbers after an item. -/
def counted (sums : Sums) (it : Item) : Sums :=
  match it.1 with
  | .OpenTag => sums ++ [(0, 0)]
  | .CloseTag | .CloseTagIm => if sums.length ≤ 1 then sums else sums.dropLast
  | .Content => sums.dropLast.map (fun c => (c.1, c.2 + 1)) ++ (sums.getLast?.map fun c => (c.1 + 1, c.2 + 1)).toList
  | _ => sums

/-- How often a query has to be answered at an item. Contents are counted for every element reached by the steps on its own. The
values of attributes all are the first ones of their attributes. Elements and close tags are not counted. -/
def Ranged.answers (x : Ranged) (path : List Open) (sums : Sums) (prev : Option Item) (it : Item) : Nat :=
  match x.query.final with
  | .content desc =>
    if it.1 = .Content then
      ((List.range (path.length + 1)).map fun i =>
        match sums[i]? with
        | some c =>
          if (desc = true ∨ i = path.length) ∧ holds x.ranges (if desc then c.2 else c.1) = true then routes x.query.steps (path.take i)
          else 0
        | none => 0).sum
    else 0
  | .attribute _ _ => if holds x.ranges 0 then x.query.answers path prev it else 0
  | _ => x.query.answers path prev it

/-- How often a type has to be reported at the items of a stream. -/
def rangedAnswers (xs : List Ranged) (ty : Int) : List Open → Sums → Option Item → List Item → List Nat
  | _, _, _, [] => []
  | path, sums, prev, it :: items =>
    ((xs.filter (·.query.type = ty)).map fun x => x.answers path sums prev it).sum ::
      rangedAnswers xs ty (grown path prev it) (counted sums it) (some it) items

end TW.Spec.Path
