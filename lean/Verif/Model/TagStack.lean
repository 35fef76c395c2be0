import Verif.Spec.Stack

/-!
# The stack of tag names (xmltagstack.hpp)

The block is a memory `Nat → Byte` of which `cap` cells are allocated; an access outside of
them, or a `size_t` access that is not aligned, is undefined behaviour. `malloc` returns
maximally aligned memory with unspecified content, and `realloc` keeps the content of the old
block: the cells behind `cap` hold what the next `realloc` will happen to find there.
`std::size_t` has 8 bytes, little endian. `std::bad_alloc` is represented by the cause
`OutOfMem`. The allocator refuses blocks of more than `limit` bytes.
-/

namespace TW

/-- xmltagstack.hpp:115-117 the members; `cap` is the size of the allocated block. -/
structure TagStack where
  mem : Nat → Byte
  cap : Nat
  pos : Nat
  size : Nat

namespace TagStack

/-- xmltagstack.hpp:33-37 the default constructor on a block with the content `mem`. -/
def new (mem : Nat → Byte) : TagStack := { mem, cap := 256, pos := 0, size := 256 }

/-- xmltagstack.hpp:39-44 the copy constructor; `mem` is the content of the new block. -/
def copy (mem : Nat → Byte) (o : TagStack) : TagStack :=
  { mem := fun i => if i < o.pos then o.mem i else mem i, cap := o.size, pos := o.pos, size := o.size }

/-- xmltagstack.hpp:119-122 `getAlign`: `& 7` is the remainder by 8. -/
def getAlign (n : Nat) : Nat := (8 - n % 8) % 8

/-- `memcpy` of `bs` to the offset `i` of the block. -/
def memcpy (i : Nat) (bs : List Byte) : M TagStack Unit := fun s =>
  if i + bs.length ≤ s.cap then
    (.ok (), { s with mem := fun j => if i ≤ j ∧ j < i + bs.length then bs.getD (j - i) 0 else s.mem j })
  else (.stop .ub, s)

/-- The bytes of a `size_t`. -/
def wordBytes (n : Nat) : List Byte := (List.range 8).map fun i => n / 256 ^ i % 256

/-- The value of the `size_t` at the offset `i`. -/
def word (mem : Nat → Byte) (i : Nat) : Nat := (List.range 8).foldr (fun j acc => mem (i + j) + 256 * acc) 0

/-- Store a `size_t`. -/
def storeWord (i n : Nat) : M TagStack Unit := do
  if i % 8 = 0 then memcpy i (wordBytes n) else M.stop .ub

/-- Load a `size_t`. -/
def loadWord (i : Nat) : M TagStack Nat := fun s =>
  if i % 8 = 0 ∧ i + 8 ≤ s.cap then (.ok (word s.mem i), s) else (.stop .ub, s)

/-- xmltagstack.hpp:56 `while (m_pos + ofs > m_size) m_size *= 2`, with fuel. -/
def grow (need : Nat) : Nat → M TagStack Unit
  | 0 => M.stop .fuel
  | n + 1 => do
    let s ← M.get
    if s.size < need then do
      M.modify fun s => { s with size := s.size * 2 % 2 ^ 64 }
      grow need n
    else pure ()

/-- xmltagstack.hpp:54-63: make room for the need. -/
def reserve (limit fuel nn ofs need : Nat) : M TagStack Unit := do
  let s ← M.get
  if s.size < need then do
    grow need fuel
    let s ← M.get
    if s.size < need then M.stop (.throw .OutOfMem)
    else if ofs < nn then M.stop (.throw .InvalidTagOffset)
    else if limit < s.size then M.stop (.throw .OutOfMem)
    else M.modify fun s => { s with cap := s.size }
  else pure ()

/-- xmltagstack.hpp:49-68 `push`. -/
def push (limit fuel : Nat) (pp : List Byte) : M TagStack Unit := do
  let nn := pp.length
  let ofs := (nn + getAlign nn + 8) % 2 ^ 64
  let s ← M.get
  reserve limit fuel nn ofs ((s.pos + ofs) % 2 ^ 64)
  memcpy s.pos pp
  M.modify fun s => { s with pos := (s.pos + ofs) % 2 ^ 64 }
  let s ← M.get
  storeWord (s.pos - 8) nn

/-- xmltagstack.hpp:103-112 `topofs`: the offset and the element size. -/
def topofs : M TagStack (Nat × Nat) := do
  let s ← M.get
  if s.pos < 8 then pure (0, 0)
  else do
    let n ← loadWord (s.pos - 8)
    let ofs := (n + getAlign n + 8) % 2 ^ 64
    if s.pos < ofs then pure (0, n) else pure (ofs, n)

/-- The bytes of the block that a caller reads through the pointer returned. -/
def bytes (i n : Nat) : M TagStack (List Byte) := fun s =>
  if i + n ≤ s.cap then (.ok ((List.range n).map fun j => s.mem (i + j)), s) else (.stop .ub, s)

/-- xmltagstack.hpp:73-79 `top`, followed by reading the element. -/
def top : M TagStack (Option (List Byte)) := do
  let (ofs, n) ← topofs
  if ofs = 0 then pure none
  else do
    let s ← M.get
    let bs ← bytes (s.pos - ofs) n
    pure (some bs)

/-- xmltagstack.hpp:82-88 `pop`. -/
def pop : M TagStack Unit := do
  let (ofs, _) ← topofs
  let s ← M.get
  if s.pos < ofs then M.stop (.throw .CorruptTagStack)
  else M.modify fun s => { s with pos := s.pos - ofs }

/-- xmltagstack.hpp:92-95 `empty`. -/
def empty (s : TagStack) : Bool := s.pos = 0

/-- xmltagstack.hpp:97-100 `clear`. -/
def clear (s : TagStack) : TagStack := { s with pos := 0 }

open Spec

/-- Run an operation on a tag stack. -/
def runOp (limit fuel : Nat) : StackOp → M TagStack StackObs
  | .push bs => do push limit fuel bs; pure StackObs.nothing
  | .pop => do pop; pure StackObs.nothing
  | .top => do let t ← top; pure (StackObs.top t)
  | .empty => do let s ← M.get; pure (StackObs.empty s.empty)
  | .clear => do M.modify clear; pure StackObs.nothing
  | .copy mem => do M.modify (copy mem); pure StackObs.nothing

/-- Run operations on a tag stack. -/
def runOps (limit fuel : Nat) : List StackOp → M TagStack (List StackObs)
  | [] => pure []
  | op :: ops => do
    let o ← runOp limit fuel op
    let os ← runOps limit fuel ops
    pure (o :: os)

end TagStack

end TW
