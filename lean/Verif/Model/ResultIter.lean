import Verif.Model.PathSelect
import Verif.Spec.ResultIter

/-!
# The iterators on the results of a path selector: xmlpathselect.hpp:340-452

A client with several iterators. The operations are those of the specification; what they do is the code.
-/

namespace TW.Path

open Spec

/-- xmlpathselect.hpp:351-352: `element`, and if `input` is the selector (otherwise it is 0). -/
structure ResIter where
  element : Int
  bound : Bool
  deriving DecidableEq, Repr

/-- A selector and the iterators of a client. -/
structure Client where
  sel : Sel
  its : Nat → Option ResIter

namespace Client

/-- An iterator that must exist. -/
def get (k : Nat) : M Client ResIter := fun c =>
  match c.its k with
  | some i => (.ok i, c)
  | none => (.stop .ub, c)

/-- Store an iterator. -/
def store (k : Nat) (i : Option ResIter) : M Client Unit := M.modify fun c => { c with its := fun j => if j = k then i else c.its j }

/-- Create an iterator where none is. -/
def create (k : Nat) (i : ResIter) : M Client Unit := do
  let c ← M.get
  if c.its k = none then store k (some i) else M.stop .ub

/-- A member function of the selector. -/
def onSel {α : Type} (x : M Sel α) : M Client α := M.zoom (·.sel) (fun s c => { c with sel := s }) x

/-- xmlpathselect.hpp:356-367 `skip`. -/
def skip (n k : Nat) : M Client Unit := do
  let i ← get k
  if i.bound then do
    let e ← onSel (Sel.fetch n)
    store k (some { i with element := e })
  else store k (some { i with element := 0 })

/-- xmlpathselect.hpp:404-407 destructor. -/
def release (i : ResIter) : M Client Unit := if i.bound then onSel (M.modify Sel.closeElement) else pure ()

/-- The operations: default constructor xmlpathselect.hpp:410-411, copy constructor 387-390 and assignment 416-420 with 379-383
`assign`, increments 438 and 442 (with a copy that is destroyed), access 424-427, comparison 372-375 and 446, destructor. -/
def exec (n : Nat) : IterOp → M Client (List Seen)
  | .none k => do create k ⟨0, false⟩; pure []
  | .copy j k => do let i ← get j; create k ⟨i.element, i.bound⟩; pure []
  | .assign j k => do
    let i ← get j
    let _ ← get k
    store k (some ⟨i.element, i.bound⟩)
    pure []
  | .pre k => do skip n k; pure []
  | .post k => do
    let tmp ← get k
    skip n k
    release tmp
    pure [.value tmp.element]
  | .read k => do let i ← get k; pure [.value i.element]
  | .equal j k => do
    let i ← get j
    let i' ← get k
    pure [.equal (i.element = i'.element)]
  | .destroy k => do
    let i ← get k
    store k none
    release i
    pure []

/-- Several operations. -/
def execs (n : Nat) : List IterOp → M Client (List Seen)
  | [] => pure []
  | o :: os => do
    let x ← exec n o
    let y ← execs n os
    pure (x ++ y)

/-- xmlpathselect.hpp:397-402 constructor, called by `push` (455-465), for the new iterator `k`. -/
def push (n : Nat) (type : ElementType) (key : List Byte) (k : Nat) : M Client Unit := do
  onSel (M.modify (Sel.initElement type key))
  create k ⟨0, true⟩
  skip n k

/-- For each item an iterator is created, then follow operations. -/
def run (n : Nat) : List (ElementType × List Byte) → List (Nat × List IterOp) → M Client (List (List Seen))
  | (type, key) :: items, (k, os) :: cs => do
    push n type key k
    let x ← execs n os
    let y ← run n items cs
    pure (x :: y)
  | _, _ => pure []

end Client

end TW.Path
