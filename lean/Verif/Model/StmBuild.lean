import Verif.Model.Stm

/-!
# The builder of state machines, as an interface

`ScannerStatemachine` (xmlscanner.hpp:23-164) with the whole array of 64
elements and with any arguments. `Model/Stm.lean` has the calls of the XML
scanner only.
-/

namespace TW

/-- The calls of xmlscanner.hpp:147-163 with their `int` arguments. A control
character is given by the value of its enumerator. The call with several control
characters (xmlscanner.hpp:151-153; one, two or three of them) has them as
`c :: more`. -/
inductive BCall where
  | state (idx : Int)
  | tr (c : Nat) (more : List Nat) (ns : Int)
  | self (c : Nat)
  | action (op arg : Int)
  | miss (e : Int)
  | fallback (s : Int)
  | other (s : Int)
  deriving DecidableEq, Repr

/-- xmlscanner.hpp:67-69: the array of `MaxNofStates` elements and the number of
states defined. -/
structure BStm where
  tab : List RawElem
  size : Nat
  deriving DecidableEq, Repr

namespace BStm

/-- xmlscanner.hpp:145 constructor. -/
def init : BStm := ⟨List.replicate 64 {}, 0⟩

/-- xmlscanner.hpp:73-78 `newState`; `(unsigned int)stateIdx` wraps. -/
def newState (idx : Int) : M BStm Unit := fun s =>
  if (s.size : Int) ≠ idx % 2 ^ 32 then (.stop (.throw .StateNumbersNotAscending), s)
  else if 64 ≤ s.size then (.stop (.throw .DimOutOfRange), s)
  else (.ok (), { s with size := s.size + 1 })

/-- The access to `tab[size-1]` behind the check `size == 0`
(xmlscanner.hpp:84,98,118,128,137); outside of the array it is undefined. -/
def onLast (f : RawElem → Except Cause RawElem) : M BStm Unit := fun s =>
  if s.size = 0 then (.stop (.throw .InvalidState), s)
  else match s.tab[s.size - 1]? with
    | none => (.stop .ub, s)
    | some e => match f e with
      | .error c => (.stop (.throw c), s)
      | .ok e' => (.ok (), { s with tab := s.tab.set (s.size - 1) e' })

/-- xmlscanner.hpp:98-103 `addTransition` on the element; `(unsigned char)nextState`
does not wrap below 65. -/
def trElem (c : Nat) (ns : Int) (e : RawElem) : Except Cause RawElem :=
  if 18 ≤ c then .error .InvalidParamChar
  else if ns < 0 ∨ 64 < ns then .error .InvalidParamState
  else if e.next[c]? ≠ some (-1) then .error .DuplicateStateTransition
  else .ok { e with next := e.next.set c ns, nofnext := e.nofnext + 1 }

/-- xmlscanner.hpp:85-90 `addOtherTransition` on the element. -/
def otherElem (ns : Int) (e : RawElem) : Except Cause RawElem :=
  if ns < 0 ∨ 64 < ns then .error .InvalidParamState
  else .ok { e with next := e.next.map (fun x => if x = -1 then ns else x), nofnext := 18 }

/-- xmlscanner.hpp:119-121 `addAction` on the element. -/
def actionElem (op arg : Int) (e : RawElem) : Except Cause RawElem :=
  if e.op ≠ -1 then .error .InvalidState else .ok { e with op := op, arg := arg }

/-- xmlscanner.hpp:129-130 `addMiss` on the element. -/
def missElem (er : Int) (e : RawElem) : Except Cause RawElem :=
  if e.miss ≠ -1 then .error .InvalidState else .ok { e with miss := er }

/-- xmlscanner.hpp:138-140 `addFallback` on the element. -/
def fallbackElem (st : Int) (e : RawElem) : Except Cause RawElem :=
  if e.fallback ≠ -1 then .error .InvalidState
  else if st < 0 ∨ 64 < st then .error .InvalidParamState
  else .ok { e with fallback := st }

/-- xmlscanner.hpp:96-104 `addTransition`. -/
def addTransition (c : Nat) (ns : Int) : M BStm Unit := onLast (trElem c ns)

/-- Several `addTransition` to the same state (xmlscanner.hpp:149-153). -/
def addTransitions : List Nat → Int → M BStm Unit
  | [], _ => pure ()
  | c :: cs, ns => do
    addTransition c ns
    addTransitions cs ns

/-- The builder calls (xmlscanner.hpp:147-163). In `self` (xmlscanner.hpp:108-111)
`size-1` is converted to `int`; for `size = 0` this is −1 and never used. -/
def exec : BCall → M BStm Unit
  | .state idx => newState idx
  | .tr c more ns => addTransitions (c :: more) ns
  | .self c => fun s => addTransition c ((s.size : Int) - 1) s
  | .action op arg => onLast (actionElem op arg)
  | .miss er => onLast (missElem er)
  | .fallback st => onLast (fallbackElem st)
  | .other ns => onLast (otherElem ns)

/-- A sequence of calls up to the first exception. -/
def run : List BCall → M BStm Unit
  | [] => pure ()
  | d :: ds => do
    exec d
    run ds

/-- A sequence of calls of a caller that catches the exceptions and goes on. -/
def goOn : List BCall → BStm → List (Res Unit) × BStm
  | [], s => ([], s)
  | d :: ds, s =>
    let r := exec d s
    let rs := goOn ds r.2
    (r.1 :: rs.1, rs.2)

/-- xmlscanner.hpp:61-65 `get` and the read of the element through the returned
pointer. -/
def get (idx : Int) : M BStm RawElem := fun s =>
  if (s.size : Int) < idx % 2 ^ 32 then (.stop (.throw .InvalidState), s)
  else match s.tab[(idx % 2 ^ 32).toNat]? with
    | none => (.stop .ub, s)
    | some e => (.ok e, s)

end BStm

/-- The calls of the constructor of the XML scanner's state machine as calls with
integers. -/
def SDef.call : SDef → BCall
  | .state s => .state s.toNat
  | .tr [] ns => .tr 18 [] ns.toNat
  | .tr (c :: cs) ns => .tr c.toNat (cs.map Cc.toNat) ns.toNat
  | .self c => .self c.toNat
  | .action a arg => .action a.toNat arg.toNat
  | .miss e => .miss e.toNat
  | .fallback s => .fallback s.toNat
  | .other s => .other s.toNat

end TW
