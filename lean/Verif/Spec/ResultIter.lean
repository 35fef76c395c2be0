import Verif.Spec.Items

/-!
# Specification: iterators on the results of an item

A client has iterators by number. All of them that belong to the selector share one position in the results: whichever is
incremented gets the next result.
-/

namespace TW.Spec

/-- What a client does with iterators. -/
inductive IterOp where
  /-- `iterator k;` -/
  | none (k : Nat)
  /-- `iterator k( j);` -/
  | copy (j k : Nat)
  /-- `k = j;` -/
  | assign (j k : Nat)
  /-- `++k;` -/
  | pre (k : Nat)
  /-- `*k++` -/
  | post (k : Nat)
  /-- `*k` -/
  | read (k : Nat)
  /-- `j == k` -/
  | equal (j k : Nat)
  /-- The iterator `k` is destroyed. -/
  | destroy (k : Nat)
  deriving DecidableEq, Repr

/-- What a client sees. -/
inductive Seen where
  | value (v : Int)
  | equal (b : Bool)
  deriving DecidableEq, Repr

/-- An iterator: its value, and if it belongs to the selector. -/
abbrev Iterators := Nat → Option (Int × Bool)

/-- One iterator is changed. -/
def Iterators.set (its : Iterators) (k : Nat) (i : Option (Int × Bool)) : Iterators := fun j => if j = k then i else its j

/-- The results not seen yet, if the end of the results has been seen, and if an iterator of the selector has been destroyed at a
close tag. -/
structure Walk where
  rest : List Int
  ended : Bool
  closed : Bool
  its : Iterators

/-- The next result: 0 at the end. -/
def Walk.next (w : Walk) : Int × Walk :=
  match w.rest with
  | r :: rs => (r, { w with rest := rs })
  | [] => (0, { w with ended := true })

/-- An iterator of the selector is destroyed. At close tags this is allowed only once, and at the end of the results. -/
def Walk.release (close : Bool) (w : Walk) : Option Walk :=
  if close then if w.ended ∧ ¬w.closed then some { w with closed := true } else none else some w

/-- `++k` for the iterator `i`; not at a close tag where an iterator has been destroyed. -/
def Walk.step (w : Walk) (k : Nat) (i : Int × Bool) : Option Walk :=
  if i.2 then
    if w.closed then none else some { w.next.2 with its := w.next.2.its.set k (some (w.next.1, true)) }
  else some { w with its := w.its.set k (some (0, false)) }

/-- One operation; `none` if it is not allowed: iterators not created or created twice, and see `release`. -/
def Walk.op (close : Bool) (w : Walk) : IterOp → Option (List Seen × Walk)
  | .none k => if w.its k = none then some ([], { w with its := w.its.set k (some (0, false)) }) else none
  | .copy j k =>
    match w.its j with
    | some i => if w.its k = none then some ([], { w with its := w.its.set k (some i) }) else none
    | none => none
  | .assign j k =>
    match w.its j with
    | some i => if w.its k = none then none else some ([], { w with its := w.its.set k (some i) })
    | none => none
  | .pre k =>
    match w.its k with
    | some i => (w.step k i).map fun w => ([], w)
    | none => none
  | .post k =>
    match w.its k with
    | some i => (w.step k i).bind fun w => ((if i.2 then w.release close else some w)).map fun w => ([.value i.1], w)
    | none => none
  | .read k =>
    match w.its k with
    | some i => some ([.value i.1], w)
    | none => none
  | .equal j k =>
    match w.its j, w.its k with
    | some i, some i' => some ([.equal (i.1 = i'.1)], w)
    | _, _ => none
  | .destroy k =>
    match w.its k with
    | some i => (if i.2 then w.release close else some w).map fun w => ([], { w with its := w.its.set k none })
    | none => none

/-- Several operations. -/
def Walk.ops (close : Bool) : List IterOp → Walk → Option (List Seen × Walk)
  | [], w => some ([], w)
  | o :: os, w =>
    match w.op close o with
    | some (x, w) => (w.ops close os).map fun y => (x ++ y.1, y.2)
    | none => none

/-- An item with results: its iterator `k` is created, then follow operations; all results must be seen, and at a close tag an iterator
must be destroyed. -/
def walkItem (close : Bool) (results : List Int) (k : Nat) (os : List IterOp) (its : Iterators) : Option (List Seen × Iterators) :=
  if its k = none then
    let first := Walk.next { rest := results, ended := false, closed := false, its }
    match Walk.ops close os { first.2 with its := its.set k (some (first.1, true)) } with
    | some (x, w) => if w.ended ∧ (close → w.closed) then some (x, w.its) else none
    | none => none
  else none

/-- A close tag. -/
def isClose (t : ElementType) : Bool := t = .CloseTag ∨ t = .CloseTagIm

/-- All items: the types of the items with their results, and for each what the client does. -/
def walkItems : List (ElementType × List Int) → List (Nat × List IterOp) → Iterators → Option (List (List Seen) × Iterators)
  | [], [], its => some ([], its)
  | (t, rs) :: items, (k, os) :: cs, its =>
    match walkItem (isClose t) rs k os its with
    | some (x, its) => (walkItems items cs its).map fun y => (x :: y.1, y.2)
    | none => none
  | _, _, _ => none

end TW.Spec
