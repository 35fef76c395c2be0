import Verif.Model.Basic

/-!
# The state machine of the XML scanner

`statemachineDef` is the sequence of builder calls of xmlscanner.hpp:309-357.
`buildStm` runs them as the builder class xmlscanner.hpp:25-164 does, with its
checks. `stm` is the resulting table in a form that is easier to reason about;
`Verif/Props/Table.lean` proves that it is what the builder constructs.
-/

namespace TW

/-- xmlscanner.hpp:173-190 `ElementType`. -/
inductive ElementType where
  | None | ErrorOccurred | HeaderStart | HeaderAttribName | HeaderAttribValue | HeaderEnd
  | DocAttribValue | DocAttribEnd | TagAttribName | TagAttribValue | OpenTag | CloseTag
  | CloseTagIm | Content | Exit
  deriving DecidableEq, Repr

/-- Enumeration values of `ElementType` (xmlscanner.hpp:173-190). -/
def ElementType.toNat : ElementType → Nat
  | .None => 0 | .ErrorOccurred => 1 | .HeaderStart => 2 | .HeaderAttribName => 3
  | .HeaderAttribValue => 4 | .HeaderEnd => 5 | .DocAttribValue => 6 | .DocAttribEnd => 7
  | .TagAttribName => 8 | .TagAttribValue => 9 | .OpenTag => 10 | .CloseTag => 11
  | .CloseTagIm => 12 | .Content => 13 | .Exit => 14

/-- xmlscanner.hpp:207-225 `Error`. -/
inductive Err where
  | Ok | ErrIllegalDocumentAttributeDef | ErrExpectedOpenTag | ErrExpectedXMLTag
  | ErrUnexpectedEndOfText | ErrSyntaxToken | ErrStringNotTerminated
  | ErrUndefinedCharacterEntity | ErrExpectedTagEnd | ErrExpectedEqual
  | ErrExpectedTagAttribute | ErrExpectedCDATATag | ErrInternal | ErrUnexpectedEndOfInput
  | ErrExpectedEndOfLine | ErrExpectedDash2
  deriving DecidableEq, Repr

/-- Enumeration values of `Error` (xmlscanner.hpp:207-225). -/
def Err.toNat : Err → Nat
  | .Ok => 0 | .ErrIllegalDocumentAttributeDef => 1 | .ErrExpectedOpenTag => 2
  | .ErrExpectedXMLTag => 3 | .ErrUnexpectedEndOfText => 4 | .ErrSyntaxToken => 5
  | .ErrStringNotTerminated => 6 | .ErrUndefinedCharacterEntity => 7 | .ErrExpectedTagEnd => 8
  | .ErrExpectedEqual => 9 | .ErrExpectedTagAttribute => 10 | .ErrExpectedCDATATag => 11
  | .ErrInternal => 12 | .ErrUnexpectedEndOfInput => 13 | .ErrExpectedEndOfLine => 14
  | .ErrExpectedDash2 => 15

/-- xmlscanner.hpp:255-261 `STMState`. -/
inductive STMState where
  | START | STARTTAG | XTAG | PITAG | PITAGEND | XTAGEND | XTAGDONE | XTAGAISK
  | XTAGANAM | XTAGAESK | XTAGAVSK | XTAGAVID | XTAGAVSQ | XTAGAVDQ | XTAGAVQE | DOCSTART
  | CONTENT | TOKEN | SEEKTOK | XMLTAG | OPENTAG | CLOSETAG | TAGCLSK | TAGAISK
  | TAGANAM | TAGAESK | TAGAVSK | TAGAVID | TAGAVSQ | TAGAVDQ | TAGAVQE | TAGCLIM
  | ENTITYSL | ENTITY | ENTITYE | ENTITYID | ENTITYSQ | ENTITYDQ | ENTITYLC | COMDASH2
  | COMSEEKE | COMENDD2 | COMENDCL | CDATA | CDATA1 | CDATA2 | CDATA3 | EXIT
  deriving DecidableEq, Repr

/-- All states in enumeration order (xmlscanner.hpp:255-261). -/
def STMState.all : List STMState := [
  .START, .STARTTAG, .XTAG, .PITAG, .PITAGEND, .XTAGEND, .XTAGDONE, .XTAGAISK,
  .XTAGANAM, .XTAGAESK, .XTAGAVSK, .XTAGAVID, .XTAGAVSQ, .XTAGAVDQ, .XTAGAVQE, .DOCSTART,
  .CONTENT, .TOKEN, .SEEKTOK, .XMLTAG, .OPENTAG, .CLOSETAG, .TAGCLSK, .TAGAISK,
  .TAGANAM, .TAGAESK, .TAGAVSK, .TAGAVID, .TAGAVSQ, .TAGAVDQ, .TAGAVQE, .TAGCLIM,
  .ENTITYSL, .ENTITY, .ENTITYE, .ENTITYID, .ENTITYSQ, .ENTITYDQ, .ENTITYLC, .COMDASH2,
  .COMSEEKE, .COMENDD2, .COMENDCL, .CDATA, .CDATA1, .CDATA2, .CDATA3, .EXIT]

/-- Enumeration values of `STMState`. -/
def STMState.toNat : STMState → Nat
  | .START => 0 | .STARTTAG => 1 | .XTAG => 2 | .PITAG => 3 | .PITAGEND => 4 | .XTAGEND => 5
  | .XTAGDONE => 6 | .XTAGAISK => 7 | .XTAGANAM => 8 | .XTAGAESK => 9 | .XTAGAVSK => 10 | .XTAGAVID => 11
  | .XTAGAVSQ => 12 | .XTAGAVDQ => 13 | .XTAGAVQE => 14 | .DOCSTART => 15 | .CONTENT => 16 | .TOKEN => 17
  | .SEEKTOK => 18 | .XMLTAG => 19 | .OPENTAG => 20 | .CLOSETAG => 21 | .TAGCLSK => 22 | .TAGAISK => 23
  | .TAGANAM => 24 | .TAGAESK => 25 | .TAGAVSK => 26 | .TAGAVID => 27 | .TAGAVSQ => 28 | .TAGAVDQ => 29
  | .TAGAVQE => 30 | .TAGCLIM => 31 | .ENTITYSL => 32 | .ENTITY => 33 | .ENTITYE => 34 | .ENTITYID => 35
  | .ENTITYSQ => 36 | .ENTITYDQ => 37 | .ENTITYLC => 38 | .COMDASH2 => 39 | .COMSEEKE => 40 | .COMENDD2 => 41
  | .COMENDCL => 42 | .CDATA => 43 | .CDATA1 => 44 | .CDATA2 => 45 | .CDATA3 => 46 | .EXIT => 47

/-- xmlscanner.hpp:287-291 `STMAction`. -/
inductive STMAction where
  | Return | ReturnWord | ReturnContent | ReturnIdentifier | ReturnSQString | ReturnDQString
  | ExpectIdentifierXML | ExpectIdentifierCDATA | ReturnEOF
  deriving DecidableEq, Repr

/-- Enumeration values of `STMAction` (xmlscanner.hpp:287-291). -/
def STMAction.toNat : STMAction → Nat
  | .Return => 0 | .ReturnWord => 1 | .ReturnContent => 2 | .ReturnIdentifier => 3
  | .ReturnSQString => 4 | .ReturnDQString => 5 | .ExpectIdentifierXML => 6
  | .ExpectIdentifierCDATA => 7 | .ReturnEOF => 8

/-! ## The builder -/

/-- xmlscanner.hpp:34-57 `Element` with its integer coding (−1 is "not defined"). -/
structure RawElem where
  fallback : Int := -1
  miss : Int := -1
  op : Int := -1
  arg : Int := 0
  nofnext : Nat := 0
  next : List Int := List.replicate 18 (-1)
  deriving DecidableEq, Repr

/-- xmlscanner.hpp:67-69: the table and the number of states defined. The table
has 64 elements; the model keeps the defined ones. -/
structure RawStm where
  tab : List RawElem
  deriving DecidableEq, Repr

/-- The builder calls of xmlscanner.hpp:147-163. -/
inductive SDef where
  | state (s : STMState)
  | tr (cs : List Cc) (ns : STMState)
  | self (c : Cc)
  | action (a : STMAction) (arg : ElementType)
  | miss (e : Err)
  | fallback (s : STMState)
  | other (s : STMState)

namespace RawStm

/-- Change the last element, `tab[size-1]`; `InvalidState` if there is none
(xmlscanner.hpp:84,98,118,128,137). -/
def onLast (t : RawStm) (f : RawElem → Except Cause RawElem) : Except Cause RawStm :=
  match t.tab.getLast? with
  | none => .error .InvalidState
  | some e => match f e with
    | .error c => .error c
    | .ok e' => .ok ⟨t.tab.dropLast ++ [e']⟩

/-- xmlscanner.hpp:73-78 `newState`. -/
def newState (t : RawStm) (idx : Nat) : Except Cause RawStm :=
  if t.tab.length ≠ idx then .error .StateNumbersNotAscending
  else if 64 ≤ t.tab.length then .error .DimOutOfRange
  else .ok ⟨t.tab ++ [({} : RawElem)]⟩

/-- xmlscanner.hpp:96-104 `addTransition`. -/
def addTransition (t : RawStm) (c : Cc) (ns : Nat) : Except Cause RawStm :=
  t.onLast fun e =>
    if 18 ≤ c.toNat then .error .InvalidParamChar
    else if 64 < ns then .error .InvalidParamState
    else if e.next[c.toNat]? ≠ some (-1) then .error .DuplicateStateTransition
    else .ok { e with next := e.next.set c.toNat ns, nofnext := e.nofnext + 1 }

/-- xmlscanner.hpp:82-91 `addOtherTransition`. -/
def addOther (t : RawStm) (ns : Nat) : Except Cause RawStm :=
  t.onLast fun e =>
    if 64 < ns then .error .InvalidParamState
    else .ok { e with next := e.next.map (fun x => if x = -1 then (ns : Int) else x), nofnext := 18 }

/-- xmlscanner.hpp:116-122 `addAction`. -/
def addAction (t : RawStm) (op arg : Nat) : Except Cause RawStm :=
  t.onLast fun e => if e.op ≠ -1 then .error .InvalidState else .ok { e with op := op, arg := arg }

/-- xmlscanner.hpp:126-131 `addMiss`. -/
def addMiss (t : RawStm) (er : Nat) : Except Cause RawStm :=
  t.onLast fun e => if e.miss ≠ -1 then .error .InvalidState else .ok { e with miss := er }

/-- xmlscanner.hpp:135-141 `addFallback`. -/
def addFallback (t : RawStm) (s : Nat) : Except Cause RawStm :=
  t.onLast fun e =>
    if e.fallback ≠ -1 then .error .InvalidState
    else if 64 < s then .error .InvalidParamState
    else .ok { e with fallback := s }

/-- Several `addTransition` to the same state (xmlscanner.hpp:149-153). -/
def addTransitions (t : RawStm) : List Cc → Nat → Except Cause RawStm
  | [], _ => .ok t
  | c :: cs, ns => match t.addTransition c ns with
    | .error e => .error e
    | .ok t' => t'.addTransitions cs ns

/-- One builder call (xmlscanner.hpp:147-163). -/
def exec (t : RawStm) : SDef → Except Cause RawStm
  | .state s => t.newState s.toNat
  | .tr cs ns => t.addTransitions cs ns.toNat
  | .self c => t.addTransition c (t.tab.length - 1)
  | .action a arg => t.addAction a.toNat arg.toNat
  | .miss e => t.addMiss e.toNat
  | .fallback s => t.addFallback s.toNat
  | .other s => t.addOther s.toNat

/-- A sequence of builder calls. -/
def execAll (t : RawStm) : List SDef → Except Cause RawStm
  | [] => .ok t
  | d :: ds => match t.exec d with
    | .error e => .error e
    | .ok t' => t'.execAll ds

end RawStm

/-- xmlscanner.hpp:309-357, the constructor of `Statemachine`. -/
def statemachineDef : List SDef := [
   .state .START, .tr [.EndOfText] .EXIT, .self .EndOfLine, .self .Cntrl, .self .Space,
      .tr [.Lt] .STARTTAG, .miss .ErrExpectedOpenTag,
   .state .STARTTAG, .self .EndOfLine, .self .Cntrl, .self .Space, .tr [.Questm] .XTAG,
      .tr [.Exclam] .ENTITYSL, .fallback .OPENTAG,
   .state .XTAG, .action .ExpectIdentifierXML .None, .tr [.EndOfLine, .Cntrl,
      .Space] .XTAGAISK, .tr [.Questm] .XTAGEND, .miss .ErrExpectedXMLTag,
   .state .PITAG, .tr [.Questm] .PITAGEND, .other .PITAG,
   .state .PITAGEND, .tr [.Gt] .CONTENT, .miss .ErrExpectedTagEnd,
   .state .XTAGEND, .tr [.Gt] .XTAGDONE, .self .EndOfLine, .self .Cntrl, .self .Space,
      .miss .ErrExpectedTagEnd,
   .state .XTAGDONE, .action .Return .HeaderEnd, .fallback .DOCSTART,
   .state .XTAGAISK, .self .EndOfLine, .self .Cntrl, .self .Space, .tr [.Questm] .XTAGEND,
      .fallback .XTAGANAM,
   .state .XTAGANAM, .action .ReturnIdentifier .HeaderAttribName, .tr [.EndOfLine, .Cntrl,
      .Space] .XTAGAESK, .tr [.Equal] .XTAGAVSK, .miss .ErrExpectedEqual,
   .state .XTAGAESK, .self .EndOfLine, .self .Cntrl, .self .Space, .tr [.Equal] .XTAGAVSK,
      .miss .ErrExpectedEqual,
   .state .XTAGAVSK, .self .EndOfLine, .self .Cntrl, .self .Space, .tr [.Sq] .XTAGAVSQ,
      .tr [.Dq] .XTAGAVDQ, .fallback .XTAGAVID,
   .state .XTAGAVID, .action .ReturnIdentifier .HeaderAttribValue, .tr [.EndOfLine, .Cntrl,
      .Space] .XTAGAISK, .tr [.Questm] .XTAGEND, .miss .ErrExpectedTagAttribute,
   .state .XTAGAVSQ, .action .ReturnSQString .HeaderAttribValue, .tr [.Sq] .XTAGAVQE,
      .miss .ErrStringNotTerminated,
   .state .XTAGAVDQ, .action .ReturnDQString .HeaderAttribValue, .tr [.Dq] .XTAGAVQE,
      .miss .ErrStringNotTerminated,
   .state .XTAGAVQE, .tr [.EndOfLine, .Cntrl, .Space] .XTAGAISK, .tr [.Questm] .XTAGEND,
      .miss .ErrExpectedTagAttribute,
   .state .DOCSTART, .tr [.EndOfText] .EXIT, .self .EndOfLine, .self .Cntrl, .self .Space,
      .tr [.Lt] .XMLTAG, .fallback .TOKEN,
   .state .CONTENT, .tr [.EndOfText] .EXIT, .tr [.Lt] .XMLTAG, .fallback .TOKEN,
   .state .TOKEN, .action .ReturnContent .Content, .tr [.EndOfText] .EXIT, .tr [.EndOfLine,
      .Cntrl, .Space] .CONTENT, .tr [.Lt] .XMLTAG, .fallback .CONTENT,
   .state .SEEKTOK, .tr [.EndOfText] .EXIT, .self .EndOfLine, .self .Cntrl, .self .Space,
      .tr [.Lt] .XMLTAG, .fallback .TOKEN,
   .state .XMLTAG, .self .EndOfLine, .self .Cntrl, .self .Space, .tr [.Questm] .PITAG,
      .tr [.Exclam] .ENTITYSL, .tr [.Slash] .CLOSETAG, .fallback .OPENTAG,
   .state .OPENTAG, .action .ReturnIdentifier .OpenTag, .tr [.EndOfLine, .Cntrl,
      .Space] .TAGAISK, .tr [.Slash] .TAGCLIM, .tr [.Gt] .CONTENT,
      .miss .ErrExpectedTagAttribute,
   .state .CLOSETAG, .action .ReturnIdentifier .CloseTag, .tr [.EndOfLine, .Cntrl,
      .Space] .TAGCLSK, .tr [.Gt] .CONTENT, .miss .ErrExpectedTagEnd,
   .state .TAGCLSK, .self .EndOfLine, .self .Cntrl, .self .Space, .tr [.Gt] .CONTENT,
      .miss .ErrExpectedTagEnd,
   .state .TAGAISK, .self .EndOfLine, .self .Cntrl, .self .Space, .tr [.Gt] .CONTENT,
      .tr [.Slash] .TAGCLIM, .fallback .TAGANAM,
   .state .TAGANAM, .action .ReturnIdentifier .TagAttribName, .tr [.EndOfLine, .Cntrl,
      .Space] .TAGAESK, .tr [.Equal] .TAGAVSK, .miss .ErrExpectedEqual,
   .state .TAGAESK, .self .EndOfLine, .self .Cntrl, .self .Space, .tr [.Equal] .TAGAVSK,
      .miss .ErrExpectedEqual,
   .state .TAGAVSK, .self .EndOfLine, .self .Cntrl, .self .Space, .tr [.Sq] .TAGAVSQ,
      .tr [.Dq] .TAGAVDQ, .fallback .TAGAVID,
   .state .TAGAVID, .action .ReturnIdentifier .TagAttribValue, .tr [.EndOfLine, .Cntrl,
      .Space] .TAGAISK, .tr [.Slash] .TAGCLIM, .tr [.Gt] .CONTENT,
      .miss .ErrExpectedTagAttribute,
   .state .TAGAVSQ, .action .ReturnSQString .TagAttribValue, .tr [.Sq] .TAGAVQE,
      .miss .ErrStringNotTerminated,
   .state .TAGAVDQ, .action .ReturnDQString .TagAttribValue, .tr [.Dq] .TAGAVQE,
      .miss .ErrStringNotTerminated,
   .state .TAGAVQE, .tr [.EndOfLine, .Cntrl, .Space] .TAGAISK, .tr [.Slash] .TAGCLIM,
      .tr [.Gt] .CONTENT, .miss .ErrExpectedTagAttribute,
   .state .TAGCLIM, .action .Return .CloseTagIm, .self .EndOfLine, .self .Cntrl, .self .Space,
      .tr [.Gt] .CONTENT, .miss .ErrExpectedTagEnd,
   .state .ENTITYSL, .tr [.Osb] .CDATA, .tr [.Dash] .COMDASH2, .fallback .ENTITY,
   .state .ENTITY, .tr [.Gt] .ENTITYE, .self .EndOfLine, .self .Cntrl, .self .Space,
      .tr [.Dq] .ENTITYDQ, .tr [.Sq] .ENTITYSQ, .tr [.Osb] .ENTITYLC, .fallback .ENTITYID,
   .state .ENTITYE, .action .Return .DocAttribEnd, .fallback .SEEKTOK,
   .state .ENTITYID, .action .ReturnIdentifier .DocAttribValue, .tr [.EndOfLine, .Cntrl,
      .Space] .ENTITY, .tr [.Gt] .ENTITYE, .miss .ErrIllegalDocumentAttributeDef,
   .state .ENTITYSQ, .action .ReturnSQString .DocAttribValue, .tr [.Sq] .ENTITY,
      .miss .ErrStringNotTerminated,
   .state .ENTITYDQ, .action .ReturnDQString .DocAttribValue, .tr [.Dq] .ENTITY,
      .miss .ErrStringNotTerminated,
   .state .ENTITYLC, .tr [.Csb] .ENTITY, .other .ENTITYLC,
   .state .COMDASH2, .tr [.Dash] .COMSEEKE, .miss .ErrExpectedDash2,
   .state .COMSEEKE, .tr [.Dash] .COMENDD2, .other .COMSEEKE,
   .state .COMENDD2, .tr [.Dash] .COMENDCL, .other .COMSEEKE,
   .state .COMENDCL, .tr [.Gt] .SEEKTOK, .tr [.Dash] .COMENDD2, .other .COMSEEKE,
   .state .CDATA, .action .ExpectIdentifierCDATA .None, .tr [.Osb] .CDATA1,
      .miss .ErrExpectedCDATATag,
   .state .CDATA1, .tr [.Csb] .CDATA2, .other .CDATA1,
   .state .CDATA2, .tr [.Csb] .CDATA3, .other .CDATA1,
   .state .CDATA3, .tr [.Gt] .CONTENT, .other .CDATA1,
   .state .EXIT, .action .Return .Exit]

/-- The state machine as constructed by the C++ code. -/
def buildStm : Except Cause RawStm := RawStm.execAll ⟨[]⟩ statemachineDef

/-! ## The table -/

/-- xmlscanner.hpp:34-57 `Element`, with `none` for −1. -/
structure Elem where
  fallback : Option STMState
  miss : Option Err
  action : Option (STMAction × ElementType)
  nofnext : Nat
  next : Cc → Option STMState

/-- xmlscanner.hpp:1065-1069 `getState()`: the element of a state. -/
def stm : STMState → Elem
  | .START => -- xmlscanner.hpp:310
    { fallback := none, miss := some .ErrExpectedOpenTag,
      action := none, nofnext := 5,
      next := fun
        | .EndOfText => some .EXIT
        | .EndOfLine => some .START
        | .Cntrl => some .START
        | .Space => some .START
        | .Lt => some .STARTTAG
        | _ => none }
  | .STARTTAG => -- xmlscanner.hpp:311
    { fallback := some .OPENTAG, miss := none,
      action := none, nofnext := 5,
      next := fun
        | .EndOfLine => some .STARTTAG
        | .Cntrl => some .STARTTAG
        | .Space => some .STARTTAG
        | .Questm => some .XTAG
        | .Exclam => some .ENTITYSL
        | _ => none }
  | .XTAG => -- xmlscanner.hpp:312
    { fallback := none, miss := some .ErrExpectedXMLTag,
      action := some (.ExpectIdentifierXML, .None), nofnext := 4,
      next := fun
        | .EndOfLine => some .XTAGAISK
        | .Cntrl => some .XTAGAISK
        | .Space => some .XTAGAISK
        | .Questm => some .XTAGEND
        | _ => none }
  | .PITAG => -- xmlscanner.hpp:313
    { fallback := none, miss := none,
      action := none, nofnext := 18,
      next := fun
        | .Questm => some .PITAGEND
        | _ => some .PITAG }
  | .PITAGEND => -- xmlscanner.hpp:314
    { fallback := none, miss := some .ErrExpectedTagEnd,
      action := none, nofnext := 1,
      next := fun
        | .Gt => some .CONTENT
        | _ => none }
  | .XTAGEND => -- xmlscanner.hpp:315
    { fallback := none, miss := some .ErrExpectedTagEnd,
      action := none, nofnext := 4,
      next := fun
        | .Gt => some .XTAGDONE
        | .EndOfLine => some .XTAGEND
        | .Cntrl => some .XTAGEND
        | .Space => some .XTAGEND
        | _ => none }
  | .XTAGDONE => -- xmlscanner.hpp:316
    { fallback := some .DOCSTART, miss := none,
      action := some (.Return, .HeaderEnd), nofnext := 0,
      next := fun
        | _ => none }
  | .XTAGAISK => -- xmlscanner.hpp:317
    { fallback := some .XTAGANAM, miss := none,
      action := none, nofnext := 4,
      next := fun
        | .EndOfLine => some .XTAGAISK
        | .Cntrl => some .XTAGAISK
        | .Space => some .XTAGAISK
        | .Questm => some .XTAGEND
        | _ => none }
  | .XTAGANAM => -- xmlscanner.hpp:318
    { fallback := none, miss := some .ErrExpectedEqual,
      action := some (.ReturnIdentifier, .HeaderAttribName), nofnext := 4,
      next := fun
        | .EndOfLine => some .XTAGAESK
        | .Cntrl => some .XTAGAESK
        | .Space => some .XTAGAESK
        | .Equal => some .XTAGAVSK
        | _ => none }
  | .XTAGAESK => -- xmlscanner.hpp:319
    { fallback := none, miss := some .ErrExpectedEqual,
      action := none, nofnext := 4,
      next := fun
        | .EndOfLine => some .XTAGAESK
        | .Cntrl => some .XTAGAESK
        | .Space => some .XTAGAESK
        | .Equal => some .XTAGAVSK
        | _ => none }
  | .XTAGAVSK => -- xmlscanner.hpp:320
    { fallback := some .XTAGAVID, miss := none,
      action := none, nofnext := 5,
      next := fun
        | .EndOfLine => some .XTAGAVSK
        | .Cntrl => some .XTAGAVSK
        | .Space => some .XTAGAVSK
        | .Sq => some .XTAGAVSQ
        | .Dq => some .XTAGAVDQ
        | _ => none }
  | .XTAGAVID => -- xmlscanner.hpp:321
    { fallback := none, miss := some .ErrExpectedTagAttribute,
      action := some (.ReturnIdentifier, .HeaderAttribValue), nofnext := 4,
      next := fun
        | .EndOfLine => some .XTAGAISK
        | .Cntrl => some .XTAGAISK
        | .Space => some .XTAGAISK
        | .Questm => some .XTAGEND
        | _ => none }
  | .XTAGAVSQ => -- xmlscanner.hpp:322
    { fallback := none, miss := some .ErrStringNotTerminated,
      action := some (.ReturnSQString, .HeaderAttribValue), nofnext := 1,
      next := fun
        | .Sq => some .XTAGAVQE
        | _ => none }
  | .XTAGAVDQ => -- xmlscanner.hpp:323
    { fallback := none, miss := some .ErrStringNotTerminated,
      action := some (.ReturnDQString, .HeaderAttribValue), nofnext := 1,
      next := fun
        | .Dq => some .XTAGAVQE
        | _ => none }
  | .XTAGAVQE => -- xmlscanner.hpp:324
    { fallback := none, miss := some .ErrExpectedTagAttribute,
      action := none, nofnext := 4,
      next := fun
        | .EndOfLine => some .XTAGAISK
        | .Cntrl => some .XTAGAISK
        | .Space => some .XTAGAISK
        | .Questm => some .XTAGEND
        | _ => none }
  | .DOCSTART => -- xmlscanner.hpp:325
    { fallback := some .TOKEN, miss := none,
      action := none, nofnext := 5,
      next := fun
        | .EndOfText => some .EXIT
        | .EndOfLine => some .DOCSTART
        | .Cntrl => some .DOCSTART
        | .Space => some .DOCSTART
        | .Lt => some .XMLTAG
        | _ => none }
  | .CONTENT => -- xmlscanner.hpp:326
    { fallback := some .TOKEN, miss := none,
      action := none, nofnext := 2,
      next := fun
        | .EndOfText => some .EXIT
        | .Lt => some .XMLTAG
        | _ => none }
  | .TOKEN => -- xmlscanner.hpp:327
    { fallback := some .CONTENT, miss := none,
      action := some (.ReturnContent, .Content), nofnext := 5,
      next := fun
        | .EndOfText => some .EXIT
        | .EndOfLine => some .CONTENT
        | .Cntrl => some .CONTENT
        | .Space => some .CONTENT
        | .Lt => some .XMLTAG
        | _ => none }
  | .SEEKTOK => -- xmlscanner.hpp:328
    { fallback := some .TOKEN, miss := none,
      action := none, nofnext := 5,
      next := fun
        | .EndOfText => some .EXIT
        | .EndOfLine => some .SEEKTOK
        | .Cntrl => some .SEEKTOK
        | .Space => some .SEEKTOK
        | .Lt => some .XMLTAG
        | _ => none }
  | .XMLTAG => -- xmlscanner.hpp:329
    { fallback := some .OPENTAG, miss := none,
      action := none, nofnext := 6,
      next := fun
        | .EndOfLine => some .XMLTAG
        | .Cntrl => some .XMLTAG
        | .Space => some .XMLTAG
        | .Questm => some .PITAG
        | .Exclam => some .ENTITYSL
        | .Slash => some .CLOSETAG
        | _ => none }
  | .OPENTAG => -- xmlscanner.hpp:330
    { fallback := none, miss := some .ErrExpectedTagAttribute,
      action := some (.ReturnIdentifier, .OpenTag), nofnext := 5,
      next := fun
        | .EndOfLine => some .TAGAISK
        | .Cntrl => some .TAGAISK
        | .Space => some .TAGAISK
        | .Slash => some .TAGCLIM
        | .Gt => some .CONTENT
        | _ => none }
  | .CLOSETAG => -- xmlscanner.hpp:331
    { fallback := none, miss := some .ErrExpectedTagEnd,
      action := some (.ReturnIdentifier, .CloseTag), nofnext := 4,
      next := fun
        | .EndOfLine => some .TAGCLSK
        | .Cntrl => some .TAGCLSK
        | .Space => some .TAGCLSK
        | .Gt => some .CONTENT
        | _ => none }
  | .TAGCLSK => -- xmlscanner.hpp:332
    { fallback := none, miss := some .ErrExpectedTagEnd,
      action := none, nofnext := 4,
      next := fun
        | .EndOfLine => some .TAGCLSK
        | .Cntrl => some .TAGCLSK
        | .Space => some .TAGCLSK
        | .Gt => some .CONTENT
        | _ => none }
  | .TAGAISK => -- xmlscanner.hpp:333
    { fallback := some .TAGANAM, miss := none,
      action := none, nofnext := 5,
      next := fun
        | .EndOfLine => some .TAGAISK
        | .Cntrl => some .TAGAISK
        | .Space => some .TAGAISK
        | .Gt => some .CONTENT
        | .Slash => some .TAGCLIM
        | _ => none }
  | .TAGANAM => -- xmlscanner.hpp:334
    { fallback := none, miss := some .ErrExpectedEqual,
      action := some (.ReturnIdentifier, .TagAttribName), nofnext := 4,
      next := fun
        | .EndOfLine => some .TAGAESK
        | .Cntrl => some .TAGAESK
        | .Space => some .TAGAESK
        | .Equal => some .TAGAVSK
        | _ => none }
  | .TAGAESK => -- xmlscanner.hpp:335
    { fallback := none, miss := some .ErrExpectedEqual,
      action := none, nofnext := 4,
      next := fun
        | .EndOfLine => some .TAGAESK
        | .Cntrl => some .TAGAESK
        | .Space => some .TAGAESK
        | .Equal => some .TAGAVSK
        | _ => none }
  | .TAGAVSK => -- xmlscanner.hpp:336
    { fallback := some .TAGAVID, miss := none,
      action := none, nofnext := 5,
      next := fun
        | .EndOfLine => some .TAGAVSK
        | .Cntrl => some .TAGAVSK
        | .Space => some .TAGAVSK
        | .Sq => some .TAGAVSQ
        | .Dq => some .TAGAVDQ
        | _ => none }
  | .TAGAVID => -- xmlscanner.hpp:337
    { fallback := none, miss := some .ErrExpectedTagAttribute,
      action := some (.ReturnIdentifier, .TagAttribValue), nofnext := 5,
      next := fun
        | .EndOfLine => some .TAGAISK
        | .Cntrl => some .TAGAISK
        | .Space => some .TAGAISK
        | .Slash => some .TAGCLIM
        | .Gt => some .CONTENT
        | _ => none }
  | .TAGAVSQ => -- xmlscanner.hpp:338
    { fallback := none, miss := some .ErrStringNotTerminated,
      action := some (.ReturnSQString, .TagAttribValue), nofnext := 1,
      next := fun
        | .Sq => some .TAGAVQE
        | _ => none }
  | .TAGAVDQ => -- xmlscanner.hpp:339
    { fallback := none, miss := some .ErrStringNotTerminated,
      action := some (.ReturnDQString, .TagAttribValue), nofnext := 1,
      next := fun
        | .Dq => some .TAGAVQE
        | _ => none }
  | .TAGAVQE => -- xmlscanner.hpp:340
    { fallback := none, miss := some .ErrExpectedTagAttribute,
      action := none, nofnext := 5,
      next := fun
        | .EndOfLine => some .TAGAISK
        | .Cntrl => some .TAGAISK
        | .Space => some .TAGAISK
        | .Slash => some .TAGCLIM
        | .Gt => some .CONTENT
        | _ => none }
  | .TAGCLIM => -- xmlscanner.hpp:341
    { fallback := none, miss := some .ErrExpectedTagEnd,
      action := some (.Return, .CloseTagIm), nofnext := 4,
      next := fun
        | .EndOfLine => some .TAGCLIM
        | .Cntrl => some .TAGCLIM
        | .Space => some .TAGCLIM
        | .Gt => some .CONTENT
        | _ => none }
  | .ENTITYSL => -- xmlscanner.hpp:342
    { fallback := some .ENTITY, miss := none,
      action := none, nofnext := 2,
      next := fun
        | .Osb => some .CDATA
        | .Dash => some .COMDASH2
        | _ => none }
  | .ENTITY => -- xmlscanner.hpp:343
    { fallback := some .ENTITYID, miss := none,
      action := none, nofnext := 7,
      next := fun
        | .Gt => some .ENTITYE
        | .EndOfLine => some .ENTITY
        | .Cntrl => some .ENTITY
        | .Space => some .ENTITY
        | .Dq => some .ENTITYDQ
        | .Sq => some .ENTITYSQ
        | .Osb => some .ENTITYLC
        | _ => none }
  | .ENTITYE => -- xmlscanner.hpp:344
    { fallback := some .SEEKTOK, miss := none,
      action := some (.Return, .DocAttribEnd), nofnext := 0,
      next := fun
        | _ => none }
  | .ENTITYID => -- xmlscanner.hpp:345
    { fallback := none, miss := some .ErrIllegalDocumentAttributeDef,
      action := some (.ReturnIdentifier, .DocAttribValue), nofnext := 4,
      next := fun
        | .EndOfLine => some .ENTITY
        | .Cntrl => some .ENTITY
        | .Space => some .ENTITY
        | .Gt => some .ENTITYE
        | _ => none }
  | .ENTITYSQ => -- xmlscanner.hpp:346
    { fallback := none, miss := some .ErrStringNotTerminated,
      action := some (.ReturnSQString, .DocAttribValue), nofnext := 1,
      next := fun
        | .Sq => some .ENTITY
        | _ => none }
  | .ENTITYDQ => -- xmlscanner.hpp:347
    { fallback := none, miss := some .ErrStringNotTerminated,
      action := some (.ReturnDQString, .DocAttribValue), nofnext := 1,
      next := fun
        | .Dq => some .ENTITY
        | _ => none }
  | .ENTITYLC => -- xmlscanner.hpp:348
    { fallback := none, miss := none,
      action := none, nofnext := 18,
      next := fun
        | .Csb => some .ENTITY
        | _ => some .ENTITYLC }
  | .COMDASH2 => -- xmlscanner.hpp:349
    { fallback := none, miss := some .ErrExpectedDash2,
      action := none, nofnext := 1,
      next := fun
        | .Dash => some .COMSEEKE
        | _ => none }
  | .COMSEEKE => -- xmlscanner.hpp:350
    { fallback := none, miss := none,
      action := none, nofnext := 18,
      next := fun
        | .Dash => some .COMENDD2
        | _ => some .COMSEEKE }
  | .COMENDD2 => -- xmlscanner.hpp:351
    { fallback := none, miss := none,
      action := none, nofnext := 18,
      next := fun
        | .Dash => some .COMENDCL
        | _ => some .COMSEEKE }
  | .COMENDCL => -- xmlscanner.hpp:352
    { fallback := none, miss := none,
      action := none, nofnext := 18,
      next := fun
        | .Gt => some .SEEKTOK
        | .Dash => some .COMENDD2
        | _ => some .COMSEEKE }
  | .CDATA => -- xmlscanner.hpp:353
    { fallback := none, miss := some .ErrExpectedCDATATag,
      action := some (.ExpectIdentifierCDATA, .None), nofnext := 1,
      next := fun
        | .Osb => some .CDATA1
        | _ => none }
  | .CDATA1 => -- xmlscanner.hpp:354
    { fallback := none, miss := none,
      action := none, nofnext := 18,
      next := fun
        | .Csb => some .CDATA2
        | _ => some .CDATA1 }
  | .CDATA2 => -- xmlscanner.hpp:355
    { fallback := none, miss := none,
      action := none, nofnext := 18,
      next := fun
        | .Csb => some .CDATA3
        | _ => some .CDATA1 }
  | .CDATA3 => -- xmlscanner.hpp:356
    { fallback := none, miss := none,
      action := none, nofnext := 18,
      next := fun
        | .Gt => some .CONTENT
        | _ => some .CDATA1 }
  | .EXIT => -- xmlscanner.hpp:357
    { fallback := none, miss := none,
      action := some (.Return, .Exit), nofnext := 0,
      next := fun
        | _ => none }

/-! ## Token character sets -/

/-- xmlscanner.hpp:367-373 `IsTagCharMap`. -/
def isTagC : Cc → Bool
  | .Undef | .Any | .Dash => true
  | _ => false

/-- xmlscanner.hpp:378-384 `IsWordCharMap`. -/
def isWordC : Cc → Bool
  | .Undef | .Equal | .Gt | .Slash | .Dash | .Exclam | .Questm | .Sq | .Dq | .Osb | .Csb
  | .Any => true
  | _ => false

/-- xmlscanner.hpp:388-394 `IsContentCharMap`. -/
def isContentC : Cc → Bool
  | .Cntrl | .Space | .EndOfLine | .Undef | .Equal | .Gt | .Slash | .Dash | .Exclam | .Questm
  | .Sq | .Dq | .Osb | .Csb | .Any => true
  | _ => false

/-- xmlscanner.hpp:398-404 `IsSQStringCharMap`. -/
def isSqC (c : Cc) : Bool := if c = .Sq then false else if c = .Space then true else isContentC c

/-- xmlscanner.hpp:408-414 `IsDQStringCharMap`. -/
def isDqC (c : Cc) : Bool := if c = .Dq then false else if c = .Space then true else isContentC c

/-- xmlscanner.hpp:1104 `tokenDefs`. -/
def tokenDefs : STMAction → Option (Cc → Bool)
  | .ReturnWord => some isWordC
  | .ReturnContent => some isContentC
  | .ReturnIdentifier => some isTagC
  | .ReturnSQString => some isSqC
  | .ReturnDQString => some isDqC
  | _ => none

/-- xmlscanner.hpp:1105 `stringDefs` ("xml" and "CDATA"). -/
def stringDefs : STMAction → Option (List Byte)
  | .ExpectIdentifierXML => some [120, 109, 108]
  | .ExpectIdentifierCDATA => some [67, 68, 65, 84, 65]
  | _ => none

end TW
