import Verif.Model.XMLScanner

/-!
# The path automaton: xmlpathautomaton.hpp

An index of type `int` where −1 means "none" is an `Option Nat`. Numbers of elements
(`int`) are unbounded integers: where they leave the type `int` (only by `TO(INT_MAX)` and the like, see C90) the
code is undefined. `getEmmitedTokens` is in `Model/PathInspect`, the source forms of the keys and `tostring` are in
`Model/PathShow`.
-/

namespace TW.Path

/-- xmlpathautomaton.hpp:48-57 `Operation`. -/
inductive Op where
  | Content | OpenTag | CloseTag | Attribute | ThisAttributeValue | AttributeValue | ContentStart
  deriving DecidableEq, Repr

/-- xmlpathautomaton.hpp:69-73 `Mask`, two `unsigned short`. The bits are those of element types,
the largest is 14. -/
structure Mask where
  pos : Nat := 0
  neg : Nat := 0
  deriving DecidableEq, Repr

namespace Mask

/-- xmlpathautomaton.hpp:76. -/
def empty (m : Mask) : Bool := m.pos = 0
/-- xmlpathautomaton.hpp:91. -/
def reject (m : Mask) (e : ElementType) : Mask := { m with neg := m.neg ||| 1 <<< e.toNat }
/-- xmlpathautomaton.hpp:95. -/
def «match» (m : Mask) (e : ElementType) : Mask := { m with pos := m.pos ||| 1 <<< e.toNat }
/-- xmlpathautomaton.hpp:188. -/
def join (m o : Mask) : Mask := { pos := m.pos ||| o.pos, neg := m.neg ||| o.neg }
/-- xmlpathautomaton.hpp:192. -/
def «matches» (m : Mask) (e : ElementType) : Bool := m.pos.testBit e.toNat
/-- xmlpathautomaton.hpp:196. -/
def rejects (m : Mask) (e : ElementType) : Bool := m.neg.testBit e.toNat

/-- xmlpathautomaton.hpp:104-142 `seekop`. -/
def seekop (m : Mask) : Op → Mask
  | .OpenTag => (m.match .OpenTag).match .HeaderStart
  | .CloseTag => ((m.match .CloseTag).match .CloseTagIm).match .HeaderEnd
  | .Attribute => ((m.match .TagAttribName).match .HeaderAttribName).reject .Content
  | .ThisAttributeValue => (((((m.match .TagAttribValue).match .HeaderAttribValue).reject
      .TagAttribName).reject .HeaderAttribName).reject .Content).reject .OpenTag
  | .AttributeValue => ((m.match .TagAttribValue).match .HeaderAttribValue).reject .Content
  | .Content => m.match .Content
  | .ContentStart => m.match .HeaderEnd

end Mask

/-- xmlpathautomaton.hpp:201-214 `Core`. -/
structure Core where
  mask : Mask := {}
  follow : Bool := false
  typeidx : Int := 0
  cntStart : Int := 0
  cntEnd : Int := -1
  deriving DecidableEq, Repr

/-- xmlpathautomaton.hpp:218-230 `State`. The key with its size is `none` for the null pointer. -/
structure State where
  core : Core := {}
  key : Option (List Byte) := none
  next : Option Nat := none
  link : Option Nat := none
  deriving DecidableEq, Repr

namespace State

/-- xmlpathautomaton.hpp:248 `isempty`: compares the indices with 0 and not with −1. -/
def isempty (s : State) : Bool :=
  s.key.isNone && s.core.typeidx == 0 && s.next == some 0 && s.link == some 0 && s.core.mask.empty

/-- xmlpathautomaton.hpp:288-294 `defineNext`. -/
def defineNext (s : State) (op : Op) (key : Option (List Byte)) (next : Nat) (follow : Bool) : State :=
  { s with core := { s.core with mask := s.core.mask.seekop op, follow }, key, next := some next }

/-- xmlpathautomaton.hpp:302-309 `defineOutput`. -/
def defineOutput (s : State) (mask : Mask) (typeidx : Int) (follow : Bool) (start stop : Int) : State :=
  { s with core := { mask, typeidx, cntEnd := stop, cntStart := start, follow } }

end State

/-- xmlpathautomaton.hpp:349 `states`. -/
abbrev Atm := List State

namespace Atm

/-- `states[i]`; outside of the vector it is undefined. -/
def stateAt (i : Nat) : M Atm State := fun a =>
  match a[i]? with
  | some s => (.ok s, a)
  | none => (.stop .ub, a)

/-- Change `states[i]`. -/
def change (i : Nat) (g : State → State) : M Atm Unit := fun a =>
  match a[i]? with
  | some s => (.ok (), a.set i (g s))
  | none => (.stop .ub, a)

/-- `states.push_back`. -/
def push (s : State) : M Atm Unit := M.modify fun a => a ++ [s]

/-- The loop at xmlpathautomaton.hpp:455-463: follow the links from the state `ee` on, looking for the
same step. The result is the follow state if it has been found, else the last state. -/
def seekStep (mask : Mask) (key : List Byte) (follow : Bool) : Nat → Nat → M Atm (Option Nat × Nat)
  | 0, _ => M.stop .fuel
  | n + 1, ee => do
    let s ← stateAt ee
    if s.key = some key ∧ s.core.follow = follow ∧ mask = s.core.mask then
      match s.next with
      | some j => pure (some j, ee)
      | none => M.stop .ub
    else match s.link with
      | some l => seekStep mask key follow n l
      | none => pure (none, ee)

/-- The loop at xmlpathautomaton.hpp:466-469 and 511-514. -/
def lastLink : Nat → Nat → M Atm Nat
  | 0, _ => M.stop .fuel
  | n + 1, i => do
    let s ← stateAt i
    match s.link with
    | some l => lastLink n l
    | none => pure i

/-- xmlpathautomaton.hpp:464-473 and 509-519: the state where something new can be
defined, linked to the state `i`. -/
def freeState (i : Nat) : M Atm Nat := do
  let s ← stateAt i
  if !s.isempty then do
    let a ← M.get
    let l ← lastLink (a.length + 1) i
    change l fun s => { s with link := some a.length }
    push {}
    pure a.length
  else pure i

/-- xmlpathautomaton.hpp:442-487 `defineNext`. -/
def defineNext (stateidx : Nat) (op : Op) (key : Option (List Byte)) (follow : Bool) : M Atm Nat := do
  let a ← M.get
  let stateidx ← if a.length = 0 then do push {}; pure 0 else pure stateidx
  let a ← M.get
  let (found, last) ← seekStep (({} : Mask).seekop op) (key.getD []) follow (a.length + 1) stateidx
  match found with
  | some j => pure j
  | none => do
    let i ← freeState last
    push {}
    let a ← M.get
    change i fun s => s.defineNext op key (a.length - 1) follow
    pure (a.length - 1)

/-- xmlpathautomaton.hpp:497-531 `defineOutput`. The exception for a wrong index is caught
and replaced by another one. -/
def defineOutput (stateidx : Nat) (mask : Mask) (typeidx : Int) (follow : Bool) (start stop : Int) :
    M Atm Nat := do
  let a ← M.get
  let stateidx ← if a.length = 0 then do push {}; pure 0 else pure stateidx
  let a ← M.get
  if a.length ≤ stateidx then M.stop (.throw .Unknown)
  else do
    let i ← freeState stateidx
    change i fun s => s.defineOutput mask typeidx follow start stop
    pure i

end Atm

/-! ## Names -/

section

variable {ι : Type} [Iter ι]

/-- The loop at xmlscanner.hpp:551-559. -/
def numericValue (base : Nat) : Nat → Byte → Nat → M (TextScanner ι) UChar
  | 0, _, _ => M.stop .fuel
  | n + 1, ch, value =>
    if ch ≠ 59 then
      let chval := hexVal ch
      if base ≤ chval then pure 0
      else
        let value := value * base + chval
        if 0xFFFFFFFF ≤ value then pure 0
        else do
          TextScanner.skip
          let ch ← TextScanner.ascii
          numericValue base n ch value
    else pure value

/-- xmlscanner.hpp:533-561 `parseStaticNumericEntityValue`. -/
def numericEntity (n : Nat) : M (TextScanner ι) UChar := do
  let ch ← TextScanner.ascii
  if ch ≠ 35 then pure 0
  else do
    TextScanner.skip
    let ch ← TextScanner.ascii
    if ch = 120 then do
      TextScanner.skip
      let ch ← TextScanner.ascii
      numericValue 16 n ch 0
    else numericValue 10 n ch 0

/-- xmlscanner.hpp:809-835 `parseStaticToken`; the result are the bytes printed. -/
def staticToken (output : Enc) (isTok : Cc → Bool) : Nat → M (TextScanner ι) (List Byte)
  | 0 => M.stop .fuel
  | n + 1 => do
    let ch ← TextScanner.control
    if isTok ch then do
      let pc ← TextScanner.chr
      TextScanner.skip
      let bs ← staticToken output isTok n
      pure (output.print pc ++ bs)
    else if ch = .Amp then do
      let pc ← numericEntity (n + 1)
      TextScanner.skip
      let bs ← staticToken output isTok n
      pure (output.print pc ++ bs)
    else pure []

end

/-- The key of a name given as null terminated string (xmlpathautomaton.hpp:587-597): the tag characters
of the name, in a buffer of 1024 bytes. -/
def nameKey (e : Enc) (n : Nat) (name : List Byte) : Res (List Byte) :=
  match (staticToken e isTagC n (TextScanner.mk' e ({ mem := name ++ [0], pos := 0 } : CharPtr))).1 with
  | .ok bs => .ok (bs.take 1024)
  | .stop er => .stop er

/-! ## Building -/

/-- xmlpathautomaton.hpp:537-565 `PathElement`. `pushOpMask` is never used. -/
structure PElem where
  stateidx : Nat := 0
  start : Int := 0
  stop : Int := -1
  follow : Bool := false
  print : Mask := {}
  deriving DecidableEq, Repr

namespace PElem

/-- xmlpathautomaton.hpp:571-576 `defineOutput`. -/
def defineOutput (p : PElem) (op : Op) : PElem := { p with print := ({} : Mask).seekop op }

/-- xmlpathautomaton.hpp:582-606 `doSelect` with the key of the name; `none` is the null pointer. -/
def select (op : Op) (key : Option (List Byte)) (p : PElem) : M Atm PElem := do
  let i ← Atm.defineNext p.stateidx op key p.follow
  pure { p with stateidx := i, follow := false }

/-- xmlpathautomaton.hpp:582-606 `doSelect`. `n` bounds the length of the name. -/
def doSelect (e : Enc) (n : Nat) (op : Op) (name : Option (List Byte)) (p : PElem) : M Atm PElem :=
  match name with
  | none => select op none p
  | some nm => match nameKey e n nm with
    | .ok key => select op (some key) p
    | .stop er => M.stop er

/-- xmlpathautomaton.hpp:610-614 `doFollow`. -/
def doFollow (p : PElem) : PElem := { p with follow := true }

/-- xmlpathautomaton.hpp:620-635 `doRange`. -/
def doRange (s t : Int) (p : PElem) : PElem :=
  if p.stop = -1 then { p with start := s, stop := t }
  else if t < p.stop then { p with stop := t }
  else if p.start < s then { p with start := s }
  else p

/-- xmlpathautomaton.hpp:640 `doCount`. -/
def doCount (n : Int) (p : PElem) : PElem := doRange 0 n p
/-- xmlpathautomaton.hpp:648 `doStart`. -/
def doStart (s : Int) (p : PElem) : PElem := doRange s 2147483647 p
/-- xmlpathautomaton.hpp:718 `TO`. -/
def to (i : Int) (p : PElem) : PElem := doCount (if 0 ≤ i then i + 1 else -1) p
/-- xmlpathautomaton.hpp:722 `FROM`. -/
def from' (i : Int) (p : PElem) : PElem := doStart i p
/-- xmlpathautomaton.hpp:727 `RANGE`. -/
def range (i j : Int) (p : PElem) : PElem := doRange i (if 0 ≤ j then j + 1 else -1) p
/-- xmlpathautomaton.hpp:731 `INDEX`. -/
def index (i : Int) (p : PElem) : PElem := doRange i (i + 1) p

/-- xmlpathautomaton.hpp:656-660 `push`. -/
def push (typeidx : Int) (p : PElem) : M Atm PElem := do
  let i ← Atm.defineOutput p.stateidx p.print typeidx p.follow p.start p.stop
  pure { p with stateidx := i }

/-- The calls of the interface (xmlpathautomaton.hpp:673-749). -/
inductive Call where
  | follow
  | tag (name : Option (List Byte))
  | closeTag
  | attribute (name : Option (List Byte))
  | ifAttribute (name value : Option (List Byte))
  | content
  | to (i : Int)
  | from' (i : Int)
  | range (i j : Int)
  | index (i : Int)
  | assign (type : Int)
  deriving DecidableEq, Repr

/-- xmlpathautomaton.hpp:673-749: `operator--` and `forAllDescendants`, `operator[]` and `selectTag`, `selectCloseTag`,
`operator()` and `selectAttribute`, `ifAttribute`, `selectContent`, `TO`, `FROM`, `RANGE`, `INDEX`,
`operator=` and `assignType`. `n` bounds the lengths of the names. -/
def call (e : Enc) (n : Nat) (p : PElem) : Call → M Atm PElem
  | .follow => pure p.doFollow
  | .tag name => doSelect e n .OpenTag name p
  | .closeTag => doSelect e n .CloseTag none p
  | .attribute name => do
    let p ← doSelect e n .Attribute name p
    pure (p.defineOutput .ThisAttributeValue)
  | .ifAttribute name value => do
    let p ← doSelect e n .Attribute name p
    doSelect e n .ThisAttributeValue value p
  | .content => pure (p.defineOutput .Content)
  | .to i => pure (p.to i)
  | .from' i => pure (p.from' i)
  | .range i j => pure (p.range i j)
  | .index i => pure (p.index i)
  | .assign type => p.push type

/-- A cascade of calls. -/
def calls (e : Enc) (n : Nat) (p : PElem) : List Call → M Atm PElem
  | [] => pure p
  | c :: cs => do
    let p ← call e n p c
    calls e n p cs

end PElem

/-- Define expressions one after the other, every one from the root (`*atm`,
xmlpathautomaton.hpp:754). -/
def build (e : Enc) (n : Nat) : List (List PElem.Call) → M Atm Unit
  | [] => pure ()
  | cs :: rest => do
    let _ ← PElem.calls e n {} cs
    build e n rest

end TW.Path
