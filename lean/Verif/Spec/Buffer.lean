import Verif.Model.Basic

/-!
# Specification: a byte string of bounded capacity
-/

namespace TW.Spec

/-- Operations on a static buffer; `resize` without a character fills with null bytes. -/
inductive BufOp where
  | push (c : Byte)
  | append (cc : List Byte)
  | resize (n : Nat) (c : Option Byte)
  | clear

/-- Content and overflow flag. -/
structure Bounded where
  content : List Byte
  overflow : Bool
  deriving DecidableEq, Repr

/-- Effect of an operation on a string of capacity `cap`. -/
def Bounded.step (cap : Nat) (b : Bounded) : BufOp → Bounded
  | .push c => { content := (b.content ++ [c]).take cap
                 overflow := b.overflow || decide (cap < b.content.length + 1) }
  | .append cc => { content := (b.content ++ cc).take cap
                    overflow := b.overflow || decide (cap < b.content.length + cc.length) }
  | .resize n c => { b with content :=
      (b.content ++ List.replicate (n - b.content.length) (c.getD 0)).take (min n cap) }
  | .clear => { content := [], overflow := false }

end TW.Spec
