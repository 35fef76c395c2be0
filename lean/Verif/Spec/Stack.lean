import Verif.Model.Basic

/-!
# Specification: a stack of byte strings
-/

namespace TW.Spec

/-- Operations on a stack. `copy` continues with a copy of the stack. -/
inductive StackOp where
  | push (bs : List Byte)
  | pop
  | top
  | empty
  | clear
  | copy (mem : Nat → Byte)

/-- What a program sees. -/
inductive StackObs where
  | nothing
  | top (bs : Option (List Byte))
  | empty (b : Bool)
  deriving DecidableEq, Repr

/-- A stack is a list, the top is its head. -/
def stackRun : List StackOp → List (List Byte) → List StackObs
  | [], _ => []
  | .push bs :: ops, st => .nothing :: stackRun ops (bs :: st)
  | .pop :: ops, st => .nothing :: stackRun ops st.tail
  | .top :: ops, st => .top st.head? :: stackRun ops st
  | .empty :: ops, st => .empty st.isEmpty :: stackRun ops st
  | .clear :: ops, _ => .nothing :: stackRun ops []
  | .copy _ :: ops, st => .nothing :: stackRun ops st

/-- The stack at the end of a history. -/
def stackEnd : List StackOp → List (List Byte) → List (List Byte)
  | [], st => st
  | .push bs :: ops, st => stackEnd ops (bs :: st)
  | .pop :: ops, st => stackEnd ops st.tail
  | .clear :: ops, _ => stackEnd ops []
  | _ :: ops, st => stackEnd ops st

/-- An operation that reads the stack or removes elements. -/
def StackOp.shrinks : StackOp → Bool
  | .push _ => false
  | .copy _ => false
  | _ => true

/-- Upper bound for the memory used by the elements pushed: each has up to 7 bytes of padding
and its size. -/
def stackNeed : List StackOp → Nat
  | [] => 0
  | .push bs :: ops => bs.length + 16 + stackNeed ops
  | _ :: ops => stackNeed ops

end TW.Spec
