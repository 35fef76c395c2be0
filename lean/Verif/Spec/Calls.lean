import Verif.Spec.Units

/-!
# Specification: histories of calls of a text scanner

The result of a call depends only on the input and the number of preceding
`skip()` calls.
-/

namespace TW.Spec

/-- Calls of the interface of `TextScanner`. -/
inductive TCall where
  | chr | ascii | control | pos | skip
  | copy (out : Enc)
  deriving DecidableEq, Repr

/-- Results of calls. -/
inductive TOut where
  | num (n : Nat)
  | cls (c : Cc)
  | bytes (bs : List Byte)
  | none
  deriving DecidableEq, Repr

/-- Class of an ASCII code; everything else is `Undef`. -/
def classOf (c : Nat) : Cc :=
  if c = 0 then .EndOfText
  else if c = 10 then .EndOfLine
  else if c = 9 ∨ c = 13 ∨ c = 32 then .Space
  else if c = 5 then .Undef
  else if c < 32 then .Cntrl
  else if c = 38 then .Amp
  else if c = 60 then .Lt
  else if c = 61 then .Equal
  else if c = 62 then .Gt
  else if c = 47 then .Slash
  else if c = 45 then .Dash
  else if c = 33 then .Exclam
  else if c = 63 then .Questm
  else if c = 39 then .Sq
  else if c = 34 then .Dq
  else if c = 91 then .Osb
  else if c = 93 then .Csb
  else if c < 128 then .Any
  else .Undef

/-- The result of one call for the character that starts at `k`. -/
def callOut (e : Enc) (f : Nat → Byte) (k : Nat) : TCall → TOut
  | .chr => .num (uval e f k)
  | .ascii => .num (if uasc e f k < 128 then uasc e f k else 0)
  | .control => .cls (classOf (uasc e f k))
  | .pos => .num k
  | .skip => .none
  | .copy out => .bytes (if e = out then slice f k (ulen e f k) else out.print (uval e f k))

/-- Offset of the current character after a history of calls. -/
def offAfter (e : Enc) (f : Nat → Byte) (k : Nat) (cs : List TCall) : Nat :=
  offs e f k (cs.count .skip)

/-- The results of a history of calls, started at the character at `k`. -/
def callsOut (e : Enc) (f : Nat → Byte) : Nat → List TCall → List TOut
  | _, [] => []
  | k, .skip :: cs => .none :: callsOut e f (k + ulen e f k) cs
  | k, c :: cs => callOut e f k c :: callsOut e f k cs

/-- No UTF-16 character is copied verbatim before it has been examined: after each
`skip()` one of `chr()`, `ascii()`, `control()` comes before the first `copychar()`.
`b` tells if the current character has been examined. -/
def Examined : Bool → List TCall → Prop
  | _, [] => True
  | _, .skip :: cs => Examined false cs
  | b, .pos :: cs => Examined b cs
  | b, .copy _ :: cs => b = true ∧ Examined b cs
  | _, .chr :: cs => Examined true cs
  | _, .ascii :: cs => Examined true cs
  | _, .control :: cs => Examined true cs

end TW.Spec
