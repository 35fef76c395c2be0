import Verif.Model.Basic

/-!
# Objects that own memory

Constructors, copy constructors, assignments and destructors of the classes of the library that hold a pointer to
memory they allocate: `IStreamIterator`, `StaticBuffer`, `TagStack` and the automaton's `State`. None of them declares
an assignment operator, so it is the one generated by the compiler, which copies the members. The content of the memory is
not described here (see `Model/Iter`, `Model/StaticBuffer`, `Model/TagStack`), and allocations do not fail.
-/

namespace TW.Own

/-- The value of a pointer: null, not initialised, memory of the caller, or a block of the heap. -/
inductive Ptr where
  | null | wild | ext
  | block (i : Nat)
  deriving DecidableEq, Repr

/-- The heap: the blocks allocated and not yet released, and the number of the next one. -/
structure Heap where
  live : List Nat
  next : Nat
  deriving DecidableEq, Repr

/-- `malloc`, `calloc`, `new char[]`. -/
def malloc : M Heap Ptr := fun h => (.ok (.block h.next), { live := h.next :: h.live, next := h.next + 1 })

/-- `free`, `delete []`: undefined for anything but null and an allocated block. -/
def free : Ptr → M Heap Unit
  | .null => pure ()
  | .wild => M.stop .ub
  | .ext => M.stop .ub
  | .block i => fun h => if i ∈ h.live then (.ok (), { h with live := h.live.erase i }) else (.stop .ub, h)

/-- An access to the memory: undefined for null, a pointer that is not initialised, or a released block. -/
def access : Ptr → M Heap Unit
  | .null => M.stop .ub
  | .wild => M.stop .ub
  | .ext => pure ()
  | .block i => fun h => if i ∈ h.live then (.ok (), h) else (.stop .ub, h)

/-- The classes. -/
inductive Cls where
  | istreamIterator | staticBuffer | tagStack | state
  deriving DecidableEq, Repr

/-- The pointer of an object (`m_buf`, `m_ar`, `m_ptr`, `key`), and `m_allocated` of `StaticBuffer`, which is true for
the other classes. The pointer `srckey` of `State` is treated in the same way as `key` by the code and left out. -/
structure Obj where
  ptr : Ptr
  owned : Bool
  deriving DecidableEq, Repr

/-- The kinds of constructors: the default one, one that allocates memory, one that gets memory of the caller. -/
inductive Ctor where
  | dflt | alloc | extern
  deriving DecidableEq, Repr

/-- The constructors the classes have. istreamiterator.hpp:100, 109-114; staticbuffer.hpp:28-33, 36-41;
xmltagstack.hpp:34-38; xmlpathautomaton.hpp:226-227. -/
def construct : Cls → Ctor → Option (M Heap Obj)
  | .istreamIterator, .dflt => some (pure { ptr := .wild, owned := true })
  | .istreamIterator, .alloc => some (do let p ← malloc; pure { ptr := p, owned := true })
  | .staticBuffer, .alloc => some (do let p ← malloc; pure { ptr := p, owned := true })
  | .staticBuffer, .extern => some (pure { ptr := .ext, owned := false })
  | .tagStack, .dflt => some (do let p ← malloc; pure { ptr := p, owned := true })
  | .state, .dflt => some (pure { ptr := .null, owned := true })
  | _, _ => none

/-- The copy constructors: istreamiterator.hpp:118-123, staticbuffer.hpp:44-54, xmltagstack.hpp:40-45,
xmlpathautomaton.hpp:233-237 with `defineKey` 254-279. -/
def copy : Cls → Obj → M Heap Obj
  | .istreamIterator, o => do
    let p ← malloc
    access o.ptr
    pure { ptr := p, owned := true }
  | .staticBuffer, o => do
    let p ← malloc
    access o.ptr
    pure { ptr := p, owned := o.owned }
  | .tagStack, o => do
    let p ← malloc
    access o.ptr
    pure { ptr := p, owned := true }
  | .state, o =>
    if o.ptr = .null then pure { ptr := .null, owned := true }
    else do
      let p ← malloc
      access o.ptr
      pure { ptr := p, owned := true }

/-- `if (p) free( p)`. -/
def freeIf (p : Ptr) : M Heap Unit := if p ≠ .null then free p else pure ()

/-- The destructors: istreamiterator.hpp:102-105, staticbuffer.hpp:57-60, xmltagstack.hpp:28-31,
xmlpathautomaton.hpp:240-244. -/
def destroy : Cls → Obj → M Heap Unit
  | .istreamIterator, o => free o.ptr
  | .staticBuffer, o => if o.owned = true then freeIf o.ptr else pure ()
  | .tagStack, o => freeIf o.ptr
  | .state, o => freeIf o.ptr

/-- Calls that get new memory: `TagStack::push` with `realloc` (xmltagstack.hpp:51-69), `State::defineKey`
(xmlpathautomaton.hpp:254-279). The other classes keep their memory. -/
def renew : Cls → Obj → M Heap Obj
  | .istreamIterator, o => pure o
  | .staticBuffer, o => pure o
  | .tagStack, o => do
    access o.ptr
    let p ← malloc
    free o.ptr
    pure { o with ptr := p }
  | .state, o => do
    freeIf o.ptr
    let p ← malloc
    pure { o with ptr := p }

/-- Calls that read or write the memory. A state without key is not read. -/
def use : Cls → Obj → M Heap Unit
  | .state, o => if o.ptr = .null then pure () else access o.ptr
  | _, o => access o.ptr

/-- The statements of a program with variables of one of the classes. -/
inductive Op where
  | construct (x : Nat) (c : Ctor)
  | copy (x y : Nat)
  | assign (x y : Nat)
  | renew (x : Nat)
  | use (x : Nat)
  | destroy (x : Nat)
  deriving DecidableEq, Repr

/-- The heap and the variables that exist. -/
structure Prog where
  heap : Heap
  vars : List (Nat × Obj)
  deriving DecidableEq, Repr

/-- The program at its start. -/
def Prog.start : Prog := { heap := { live := [], next := 0 }, vars := [] }

/-- The object of a variable. -/
def Prog.get (x : Nat) (p : Prog) : Option Obj := (p.vars.find? fun v => v.1 == x).map Prod.snd

/-- Run code on the heap and change the variables with the result. -/
def Prog.on {α : Type} (m : M Heap α) (f : α → List (Nat × Obj) → List (Nat × Obj)) : M Prog Unit := fun p =>
  match m p.heap with
  | (.ok a, h) => (.ok (), { heap := h, vars := f a p.vars })
  | (.stop er, h) => (.stop er, { p with heap := h })

/-- The variable gets another object. -/
def set (x : Nat) (o : Obj) (vs : List (Nat × Obj)) : List (Nat × Obj) := vs.map fun v => if v.1 == x then (x, o) else v

/-- One statement. Statements on variables that do not exist, or constructions of variables that exist, are not
possible in a program and have no effect here. `assign` is the assignment generated by the compiler. -/
def step (c : Cls) : Op → M Prog Unit
  | .construct x k => fun p =>
    match p.get x, construct c k with
    | none, some m => Prog.on m (fun o vs => (x, o) :: vs) p
    | _, _ => (.ok (), p)
  | .copy x y => fun p =>
    match p.get x, p.get y with
    | none, some o => Prog.on (copy c o) (fun o' vs => (x, o') :: vs) p
    | _, _ => (.ok (), p)
  | .assign x y => fun p =>
    match p.get x, p.get y with
    | some _, some o => (.ok (), { p with vars := set x o p.vars })
    | _, _ => (.ok (), p)
  | .renew x => fun p =>
    match p.get x with
    | some o => Prog.on (renew c o) (fun o' vs => set x o' vs) p
    | none => (.ok (), p)
  | .use x => fun p =>
    match p.get x with
    | some o => Prog.on (use c o) (fun _ vs => vs) p
    | none => (.ok (), p)
  | .destroy x => fun p =>
    match p.get x with
    | some o => Prog.on (destroy c o) (fun _ vs => vs.filter fun v => v.1 != x) p
    | none => (.ok (), p)

/-- A program. -/
def run (c : Cls) : List Op → M Prog Unit
  | [] => pure ()
  | op :: ops => do
    step c op
    run c ops

end TW.Own
