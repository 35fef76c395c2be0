import Verif.Model.PathParse

/-!
# The text of an automaton: `tostring` of xmlpathautomaton.hpp

The states with the source forms of their keys (`srckey`). The functions that define states are those of
`Model/PathAutomaton` with the source forms added.
-/

namespace TW.Path

/-- xmlpathautomaton.hpp:60-65 `operationName`. -/
def operationName (op : Op) : List Byte :=
  match op with
  | .Content => ascii "Content"
  | .OpenTag => ascii "OpenTag"
  | .CloseTag => ascii "CloseTag"
  | .Attribute => ascii "Attribute"
  | .ThisAttributeValue => ascii "ThisAttributeValue"
  | .AttributeValue => ascii "AttributeValue"
  | .ContentStart => ascii "ContentStart"

/-- xmlpathautomaton.hpp:145-183 `seekopName`; `hasMatch` and `hasReject` (92, 96) are the same as `matches` and `rejects`. -/
def Mask.seekopName (m : Mask) : List Byte :=
  if m.matches .OpenTag && m.matches .HeaderStart then ascii "OpenTag"
  else if m.matches .CloseTag && m.matches .CloseTagIm && m.matches .HeaderEnd then ascii "CloseTag"
  else if m.matches .TagAttribName && m.matches .HeaderAttribName && m.rejects .Content then ascii "Attribute"
  else if m.matches .TagAttribValue && m.matches .HeaderAttribValue && m.rejects .Content then ascii "AttributeValue"
  else if m.matches .TagAttribValue && m.matches .HeaderAttribValue && m.rejects .TagAttribName && m.rejects .HeaderAttribName &&
      m.rejects .Content && m.rejects .OpenTag then ascii "ThisAttributeValue"
  else if m.matches .Content then ascii "Content"
  else if m.matches .HeaderEnd then ascii "ContentStart"
  else if m.pos = 0 ∧ m.neg = 0 then ascii "None"
  else []

/-- A state with the source form of its key; `none` is the null pointer. -/
structure SState where
  st : State := {}
  src : Option (List Byte) := none
  deriving DecidableEq, Repr

/-- xmlpathautomaton.hpp:349 `states`. -/
abbrev SAtm := List SState

/-- The states without the source forms. -/
def SAtm.plain (a : SAtm) : Atm := a.map SState.st

/-- xmlpathautomaton.hpp:271-277, the source form in `defineKey`: the characters before the first null. -/
def cstring (name : List Byte) : List Byte := name.takeWhile (· ≠ 0)

namespace SAtm

/-- A function that does not change the states. -/
def look {α : Type} (x : M Atm α) : M SAtm α := fun a => ((x (plain a)).1, a)

/-- Change `states[i]`. -/
def change (i : Nat) (g : SState → SState) : M SAtm Unit := fun a =>
  match a[i]? with
  | some s => (.ok (), a.set i (g s))
  | none => (.stop .ub, a)

/-- `states.push_back`. -/
def push (s : SState) : M SAtm Unit := M.modify fun a => a ++ [s]

/-- xmlpathautomaton.hpp:464-473 and 509-519. -/
def freeState (i : Nat) : M SAtm Nat := do
  let s ← look (Atm.stateAt i)
  if !s.isempty then do
    let a ← M.get
    let l ← look (Atm.lastLink (a.length + 1) i)
    change l fun s => { s with st := { s.st with link := some a.length } }
    push {}
    pure a.length
  else pure i

/-- xmlpathautomaton.hpp:442-487 `defineNext`, with the name as it was given to `doSelect`. -/
def defineNext (stateidx : Nat) (op : Op) (key name : Option (List Byte)) (follow : Bool) : M SAtm Nat := do
  let a ← M.get
  let stateidx ← if a.length = 0 then do push {}; pure 0 else pure stateidx
  let a ← M.get
  let (found, last) ← look (Atm.seekStep (({} : Mask).seekop op) (key.getD []) follow (a.length + 1) stateidx)
  match found with
  | some j => pure j
  | none => do
    let i ← freeState last
    push {}
    let a ← M.get
    change i fun s => { st := s.st.defineNext op key (a.length - 1) follow, src := name.map cstring }
    pure (a.length - 1)

/-- xmlpathautomaton.hpp:497-531 `defineOutput`. -/
def defineOutput (stateidx : Nat) (mask : Mask) (typeidx : Int) (follow : Bool) (start stop : Int) : M SAtm Nat := do
  let a ← M.get
  let stateidx ← if a.length = 0 then do push {}; pure 0 else pure stateidx
  let a ← M.get
  if a.length ≤ stateidx then M.stop (.throw .Unknown)
  else do
    let i ← freeState stateidx
    change i fun s => { s with st := s.st.defineOutput mask typeidx follow start stop }
    pure i

/-- xmlpathautomaton.hpp:582-606 `doSelect`. -/
def doSelect (e : Enc) (n : Nat) (op : Op) (name : Option (List Byte)) (p : PElem) : M SAtm PElem :=
  match name with
  | none => do
    let i ← defineNext p.stateidx op none none p.follow
    pure { p with stateidx := i, follow := false }
  | some nm => match nameKey e n nm with
    | .ok key => do
      let i ← defineNext p.stateidx op (some key) (some nm) p.follow
      pure { p with stateidx := i, follow := false }
    | .stop er => M.stop er

/-- The calls of the interface (xmlpathautomaton.hpp:673-749), as in `PElem.call`. -/
def call (e : Enc) (n : Nat) (p : PElem) : PElem.Call → M SAtm PElem
  | .follow => pure p.doFollow
  | .tag name => doSelect e n .OpenTag name p
  | .closeTag => doSelect e n .CloseTag none p
  | .attribute name => do
    let p ← doSelect e n .Attribute name p
    pure (p.defineOutput .ThisAttributeValue)
  | .ifAttribute name value => do
    let p ← doSelect e n .Attribute name p
    doSelect e n .ThisAttributeValue value p
  | .content => pure (p.defineOutput .Content)
  | .to i => pure (p.to i)
  | .from' i => pure (p.from' i)
  | .range i j => pure (p.range i j)
  | .index i => pure (p.index i)
  | .assign type => do
    let i ← defineOutput p.stateidx p.print type p.follow p.start p.stop
    pure { p with stateidx := i }

/-- xmlpathautomatonparse.hpp:216 `ExprState_FOREACH`, as `forEach`. -/
def forEach (e : Enc) (n : Nat) (c : PElem.Call) : List PElem → M SAtm (List PElem)
  | [] => pure []
  | p :: ps => do
    let p ← call e n p c
    let ps ← forEach e n c ps
    pure (p :: ps)

/-- xmlpathautomatonparse.hpp:227-250, as `forAlt`. -/
def forAlt (e : Enc) (n : Nat) (mk : Option (List Byte) → PElem.Call) (ps : List PElem) : List (List Byte) → M SAtm (List PElem)
  | [] => pure []
  | a :: alt => do
    let qs ← forEach e n (mk (some a)) ps
    let rs ← forAlt e n mk ps alt
    pure (qs ++ rs)

/-- The calls of a turn of the loop, as `Act.run`. -/
def act (e : Enc) (n : Nat) (ps : List PElem) : Act → M SAtm (List PElem)
  | .none => pure ps
  | .call c => forEach e n c ps
  | .tags alt => forAlt e n .tag ps alt
  | .attributes alt => forAlt e n .attribute ps alt

/-- The loop at xmlpathautomatonparse.hpp:68-210, as `Parser.loop`; `t` is the source. -/
def loop (e : Enc) (n : Nat) (type : Int) : Nat → Parse.Src → PState → List PElem → M SAtm Nat
  | 0, _, _, _ => M.stop .fuel
  | m + 1, t, st, ps =>
    match TextScanner.chr t with
    | (.stop er, _) => M.stop er
    | (.ok c, t) =>
      if c = 0 then do
        let _ ← forEach e n (.assign type) ps
        pure 0
      else
        match Parse.turn e n st c t with
        | (.stop er, _) => M.stop er
        | (.ok none, t) => pure (t.getPosition + 1)
        | (.ok (some (x, st)), t) => do
          let ps ← act e n ps x
          match Parse.skipSpaces n t with
          | (.stop er, _) => M.stop er
          | (.ok (), t) => loop e n type m t st ps

/-- xmlpathautomatonparse.hpp:45-213 `addExpression`. -/
def addExpression (se e : Enc) (n : Nat) (type : Int) (esrc : List Byte) : M SAtm Nat :=
  match nsPos esrc 0 with
  | some i => pure (i + 1)
  | none => loop e n type n (TextScanner.mk' se (CStr.mk' esrc)) .SelectStart [{}]

end SAtm

/-- `operator<<` of a stream for an integer that is not negative: the decimal digits. -/
def showNat (n : Nat) : List Byte := if n < 10 then [48 + n] else showNat (n / 10) ++ [48 + n % 10]

/-- `operator<<` of a stream for an `int`. -/
def showInt : Int → List Byte
  | .ofNat n => showNat n
  | .negSucc n => 45 :: showNat (n + 1)

/-- xmlpathautomaton.hpp:318-347 `State::tostring`. At line 340 the stream is written to itself. Before C++11 this writes the address
of the stream, `self`, from C++11 on the function cannot be compiled. -/
def SState.tostring (self : List Byte) (s : SState) : List Byte :=
  (match s.st.next with
    | some i => ascii " ->" ++ showNat i
    | none => []) ++
  (match s.st.link with
    | some i => ascii " ~" ++ showNat i
    | none => []) ++
  [32] ++ (if s.st.core.follow then [47] else []) ++ [47] ++ s.st.core.mask.seekopName ++
  (match s.src with
    | some k => ascii " '" ++ k ++ ascii "'"
    | none => ascii " (null)") ++
  (if 0 < s.st.core.cntEnd then [91] ++ showInt s.st.core.cntStart ++ [44] ++ self ++ showInt s.st.core.cntEnd ++ [93] else []) ++
  (if s.st.core.typeidx ≠ 0 then ascii " =>" ++ showInt s.st.core.typeidx else [])

/-- xmlpathautomaton.hpp:352-361: the loop in `tostring`, from the state number `i` on. -/
def SAtm.showFrom (self : List Byte) (i : Nat) : List SState → List Byte
  | [] => []
  | s :: a => showNat i ++ ascii ": " ++ s.tostring self ++ [10] ++ showFrom self (i + 1) a

/-- xmlpathautomaton.hpp:352-361 `tostring`. -/
def SAtm.tostring (self : List Byte) (a : SAtm) : List Byte := showFrom self 0 a

end TW.Path
