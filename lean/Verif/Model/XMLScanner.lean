import Verif.Model.Stm
import Verif.Model.TextScanner

/-!
# XMLScanner

The scanner uses its input only through the members `control`, `ascii`,
`copychar`, `skip` and `getPosition` of `TextScanner`; the model is generic in
this interface.
-/

namespace TW

/-- The operations of `TextScanner` called by `XMLScanner`. `copychar out` returns
the bytes appended to the output buffer for output character set `out`. -/
class Reader (ρ : Type) where
  control : M ρ Cc
  ascii : M ρ Byte
  copychar : Enc → M ρ (List Byte)
  skip : M ρ Unit
  getPosition : ρ → Nat

instance {ι : Type} [Iter ι] : Reader (TextScanner ι) where
  control := TextScanner.control
  ascii := TextScanner.ascii
  copychar := TextScanner.copychar
  skip := TextScanner.skip
  getPosition := TextScanner.getPosition

/-- xmlscanner.hpp:441-451 `TokState::Id`. -/
inductive TokId where
  | Start | ParsingDone | ParsingKey | ParsingEntity | ParsingNumericEntity
  | ParsingNumericBaseEntity | ParsingNamedEntity | ParsingToken
  deriving DecidableEq, Repr

/-- xmlscanner.hpp:436-476 `TokState`. `eolCR` is `eolnState == CR`. The member
`curchr_saved` is left out: it is only ever assigned 0, so the branch at 705-709
is never taken. -/
structure TokState where
  id : TokId
  eolCR : Bool
  pos : Nat
  base : Nat
  value : Nat
  buf : List Byte
  deriving DecidableEq, Repr

/-- xmlscanner.hpp:467 constructor (`buf` is uninitialised, zeros in the model). -/
def TokState.new : TokState :=
  { id := .Start, eolCR := false, pos := 0, base := 0, value := 0, buf := List.replicate 16 0 }

/-- xmlscanner.hpp:472-475 `init`. -/
def TokState.init (t : TokState) (id : TokId := .Start) : TokState :=
  { t with id, eolCR := false, pos := 0, base := 0, value := 0 }

/-- xmlscanner.hpp:515-528 `HEX`. -/
def hexVal (ch : Byte) : Nat :=
  if 48 ≤ ch ∧ ch ≤ 57 then ch - 48
  else if 65 ≤ ch ∧ ch ≤ 70 then ch - 55
  else if 97 ≤ ch ∧ ch ≤ 102 then ch - 87
  else 0xFF

/-- xmlscanner.hpp:973-980 and 477. The output buffer is a `std::string`.
`entityMap` is the `std::map<const char*,UChar>` of line 487: its keys are
compared as pointers, so the model keys it by addresses; `bufAddr` is the address
of the entity buffer `tokstate.buf` that is passed to `find` at line 953. -/
structure Scanner (ρ : Type) where
  state : STMState
  error : Err
  src : ρ
  entityMap : Option (List (Nat × UChar))
  bufAddr : Nat
  out : List Byte
  output : Enc
  tokenpos : Nat
  tok : TokState

namespace Scanner

variable {ρ : Type} [Reader ρ]

/-- xmlscanner.hpp:986-1006 constructors. -/
def mk' (src : ρ) (output : Enc) (entityMap : Option (List (Nat × UChar)) := none)
    (bufAddr : Nat := 0) : Scanner ρ :=
  { state := .START, error := .Ok, src, entityMap, bufAddr, out := [], output, tokenpos := 0,
    tok := TokState.new }

/-- Run an operation of the source reader. -/
def onSrc {α : Type} (x : M ρ α) : M (Scanner ρ) α := fun s =>
  match x s.src with
  | (r, src) => (r, { s with src })

def control : M (Scanner ρ) Cc := onSrc Reader.control
def asciiM : M (Scanner ρ) Byte := onSrc Reader.ascii
def skip : M (Scanner ρ) Unit := onSrc Reader.skip

/-- Change `tokstate`. -/
def modTok (f : TokState → TokState) : M (Scanner ρ) Unit :=
  M.modify fun s => { s with tok := f s.tok }

def tokInit (id : TokId) : M (Scanner ρ) Unit := modTok fun t => t.init id
def setId (id : TokId) : M (Scanner ρ) Unit := modTok fun t => { t with id }
def setError (e : Err) : M (Scanner ρ) Unit := M.modify fun s => { s with error := e }
def setState (st : STMState) : M (Scanner ρ) Unit := M.modify fun s => { s with state := st }

/-- Append bytes to the output buffer. -/
def emit (bs : List Byte) : M (Scanner ρ) Unit := M.modify fun s => { s with out := s.out ++ bs }

/-- xmlscanner.hpp:493-496 `push`. -/
def push (ch : UChar) : M (Scanner ρ) Unit :=
  M.modify fun s => { s with out := s.out ++ s.output.print ch }

/-- xmlscanner.hpp:498-511 `copychar`. -/
def copychar : M (Scanner ρ) Unit := do
  let s ← M.get
  let bs ← onSrc (Reader.copychar s.output)
  emit bs

/-- `tokstate.buf[pos] = ch`, `ub` outside of the 16 cells. -/
def storeTok (i : Nat) (ch : Byte) : M (Scanner ρ) Unit := fun s =>
  if i < s.tok.buf.length then
    (.ok (), { s with tok := { s.tok with buf := s.tok.buf.set i ch } })
  else (.stop .ub, s)

/-- `tokstate.pos++` -/
def incPos : M (Scanner ρ) Unit := modTok fun t => { t with pos := t.pos + 1 }

/-- Push a sequence of characters. -/
def pushAll : List UChar → M (Scanner ρ) Unit
  | [] => pure ()
  | c :: cs => do push c; pushAll cs

/-- xmlscanner.hpp:565-591 `fallbackEntity`. -/
def fallbackEntity : M (Scanner ρ) Unit := do
  let s ← M.get
  match s.tok.id with
  | .Start | .ParsingDone | .ParsingKey | .ParsingToken => pure ()
  | .ParsingEntity => push 38
  | .ParsingNumericEntity => do push 38; push 35
  | .ParsingNumericBaseEntity => do push 38; push 35; pushAll (s.tok.buf.take s.tok.pos)
  | .ParsingNamedEntity => do push 38; pushAll (s.tok.buf.take s.tok.pos)

/-- xmlscanner.hpp:638-668, the loop of `parseNumericBaseEntity`; the argument is
the number of free cells `sizeof(buf) - pos`. -/
def numericLoop : Nat → M (Scanner ρ) Bool
  | 0 => do fallbackEntity; pure true
  | k + 1 => do
    let ch ← asciiM
    let s ← M.get
    if ch = 59 then
      if 0xFFFFFFFF < s.tok.value then do
        storeTok s.tok.pos ch
        incPos
        fallbackEntity
        pure true
      else do
        push (s.tok.value % 2 ^ 32)
        tokInit .ParsingToken
        skip
        pure true
    else
      if s.tok.base ≤ hexVal ch then do
        fallbackEntity
        pure true
      else do
        storeTok s.tok.pos ch
        incPos
        modTok fun t => { t with value := (t.value * t.base + hexVal ch) % 2 ^ 64 }
        skip
        numericLoop k

/-- xmlscanner.hpp:633-669 `parseNumericBaseEntity`. -/
def parseNumericBaseEntity : M (Scanner ρ) Bool := do
  setId .ParsingNumericBaseEntity
  let s ← M.get
  numericLoop (16 - s.tok.pos)

/-- xmlscanner.hpp:613-629 `parseNumericEntity`. -/
def parseNumericEntity : M (Scanner ρ) Bool := do
  setId .ParsingNumericEntity
  let ch ← asciiM
  if ch = 120 then do
    modTok fun t => { t with base := 16 }
    skip
    parseNumericBaseEntity
  else do
    modTok fun t => { t with base := 10 }
    parseNumericBaseEntity

/-- xmlscanner.hpp:884-940 `pushPredefinedEntity` (the nested comparisons decide
string equality with the six names). -/
def predefinedEntity (name : List Byte) : Option UChar :=
  if name = [113, 117, 111, 116] then some 34        -- quot
  else if name = [97, 109, 112] then some 38         -- amp
  else if name = [97, 112, 111, 115] then some 39    -- apos
  else if name = [108, 116] then some 60             -- lt
  else if name = [103, 116] then some 62             -- gt
  else if name = [110, 98, 115, 112] then some 32    -- nbsp
  else none

/-- xmlscanner.hpp:945-971 `pushEntity`; the argument is the C string in
`tokstate.buf`. -/
def pushEntity (name : List Byte) : M (Scanner ρ) Bool := do
  match predefinedEntity name with
  | some c => do push c; pure true
  | none => do
    let s ← M.get
    match s.entityMap with
    | some m =>
      match m.find? (fun e => e.1 = s.bufAddr) with
      | some e => do push e.2; pure true
      | none => do setError .ErrUndefinedCharacterEntity; pure false
    | none => do setError .ErrUndefinedCharacterEntity; pure false

/-- xmlscanner.hpp:678-684, the loop of `parseNamedEntity`; the first argument is
the number of free cells `sizeof(buf)-1 - pos`, the second the variable `ch`. -/
def namedLoop : Nat → Byte → M (Scanner ρ) Byte
  | 0, ch => pure ch
  | k + 1, ch =>
    if ch ≠ 59 then do
      let c ← control
      if c = .Any then do
        let s ← M.get
        storeTok s.tok.pos ch
        skip
        incPos
        let ch ← asciiM
        namedLoop k ch
      else pure ch
    else pure ch

/-- xmlscanner.hpp:673-698 `parseNamedEntity`. -/
def parseNamedEntity : M (Scanner ρ) Bool := do
  setId .ParsingNamedEntity
  let ch ← asciiM
  let s ← M.get
  let ch ← namedLoop (15 - s.tok.pos) ch
  if ch = 59 then do
    let s ← M.get
    storeTok s.tok.pos 0
    let s ← M.get
    let r ← pushEntity (s.tok.buf.takeWhile (· ≠ 0))
    if r then do
      tokInit .ParsingToken
      skip
      pure true
    else pure false
  else do
    fallbackEntity
    pure true

/-- xmlscanner.hpp:595-609 `parseEntity`. -/
def parseEntity : M (Scanner ρ) Bool := do
  setId .ParsingEntity
  let ch ← asciiM
  if ch = 35 then do
    skip
    parseNumericEntity
  else parseNamedEntity

/-- xmlscanner.hpp:702-725 `parseTokenRecover`. -/
def parseTokenRecover : M (Scanner ρ) Bool := do
  let s ← M.get
  match s.tok.id with
  | .Start | .ParsingDone | .ParsingKey | .ParsingToken => do
    setError .ErrInternal
    pure false
  | .ParsingEntity => do let rt ← parseEntity; tokInit .ParsingToken; pure rt
  | .ParsingNumericEntity => do let rt ← parseNumericEntity; tokInit .ParsingToken; pure rt
  | .ParsingNumericBaseEntity => do
    let rt ← parseNumericBaseEntity; tokInit .ParsingToken; pure rt
  | .ParsingNamedEntity => do let rt ← parseNamedEntity; tokInit .ParsingToken; pure rt

/-- xmlscanner.hpp:754-781: treat one token character. -/
def tokenChar : M (Scanner ρ) Unit := do
  let aa ← asciiM
  if aa ≤ 0xD then
    if aa = 13 then do
      push 10
      modTok fun t => { t with eolCR := true }
    else if aa = 10 then do
      let s ← M.get
      if s.tok.eolCR then pure () else push 10
      modTok fun t => { t with eolCR := false }
    else do
      copychar
      modTok fun t => { t with eolCR := false }
  else do
    copychar
    modTok fun t => { t with eolCR := false }

/-- xmlscanner.hpp:746-798, the loops of `parseToken` merged into one. -/
def tokenLoop (isTok : Cc → Bool) : Nat → M (Scanner ρ) Bool
  | 0 => M.stop .fuel
  | n + 1 => do
    let ch ← control
    if isTok ch then do
      tokenChar
      skip
      tokenLoop isTok n
    else if ch = .Amp then do
      skip
      let r ← parseEntity
      if r then do
        tokInit .ParsingToken
        tokenLoop isTok n
      else do
        tokInit .Start
        pure false
    else do
      tokInit .ParsingDone
      pure true

/-- xmlscanner.hpp:730-799 `parseToken`. -/
def parseToken (n : Nat) (isTok : Cc → Bool) : M (Scanner ρ) Bool := do
  let s ← M.get
  if s.tok.id = .Start then do
    M.modify fun s => { s with tokenpos := Reader.getPosition s.src, out := [] }
    setId .ParsingToken
    tokenLoop isTok n
  else if s.tok.id ≠ .ParsingToken then do
    let r ← parseTokenRecover
    if r then tokenLoop isTok n
    else do
      tokInit .Start
      pure false
  else tokenLoop isTok n

/-- xmlscanner.hpp:841-853 `skipToken`, the two loops merged. -/
def skipToken (isTok : Cc → Bool) : Nat → M (Scanner ρ) Bool
  | 0 => M.stop .fuel
  | n + 1 => do
    let ch ← control
    if isTok ch || ch = .Amp then do
      skip
      skipToken isTok n
    else do
      let ch ← control
      if ch = .Any then skipToken isTok n else pure true

/-- xmlscanner.hpp:862-876, the loop of `expectStr` on the rest of the string. -/
def expectLoop : List Byte → M (Scanner ρ) Bool
  | [] => pure true
  | c :: cs => do
    let a ← asciiM
    if a = c then do
      skip
      incPos
      expectLoop cs
    else do
      let ch ← control
      setError (if ch = .EndOfText then .ErrUnexpectedEndOfText else .ErrSyntaxToken)
      pure false

/-- xmlscanner.hpp:858-879 `expectStr`. Starting behind the terminating null of the
string is a read outside of it. -/
def expectStr (str : List Byte) : M (Scanner ρ) Bool := do
  setId .ParsingKey
  let s ← M.get
  if str.length < s.tok.pos then M.stop .ub
  else do
    let r ← expectLoop (str.drop s.tok.pos)
    tokInit .ParsingDone
    pure r

/-- xmlscanner.hpp:1112-1154: the action of a state. The result is `none` for
`return ErrorOccurred`, and `some rt` otherwise with the value of the variable
`rt` (`None` if it has not been set). -/
def action (n : Nat) (mask : Nat) (op : STMAction) (arg : ElementType) :
    M (Scanner ρ) (Option ElementType) := do
  match tokenDefs op with
  | some isTok => do
    let s ← M.get
    if s.tok.id ≠ .ParsingDone then
      if mask.testBit arg.toNat then do
        let r ← parseToken n isTok
        if r then pure (some arg) else pure none
      else do
        let r ← skipToken isTok n
        if r then pure (some arg) else pure none
    else pure (some arg)
  | none =>
    match stringDefs op with
    | some str => do
      let s ← M.get
      if s.tok.id ≠ .ParsingDone then do
        let r ← expectStr str
        if r then
          if op = .ExpectIdentifierXML then do
            push 63; push 120; push 109; push 108
            pure (some .HeaderStart)
          else pure (some .None)
        else pure none
      else if op = .ExpectIdentifierXML then pure (some .HeaderStart)
      else pure (some .None)
    | none => do
      M.modify fun s => { s with tokenpos := Reader.getPosition s.src, out := [] }
      pure (some arg)

/-- The loop condition xmlscanner.hpp:1192: `none` means another iteration. -/
def loopEnd (rt : ElementType) : Option ElementType := if rt = .None then none else some rt

/-- xmlscanner.hpp:1164-1191: the transition on the next control character. -/
def transition (sd : Elem) (rt : ElementType) : M (Scanner ρ) (Option ElementType) := do
  let ch ← control
  setId .Start
  match sd.next ch with
  | some ns => do
    setState ns
    skip
    pure (loopEnd rt)
  | none =>
    match sd.fallback with
    | some fb => do
      setState fb
      pure (loopEnd rt)
    | none =>
      match sd.miss with
      | some e => do
        setError e
        pure (some .ErrorOccurred)
      | none => do
        setError (if ch = .EndOfText then .ErrUnexpectedEndOfText else .ErrInternal)
        pure (some .ErrorOccurred)

/-- xmlscanner.hpp:1110-1191: one iteration of the loop of `nextItem`, `n` bounds
the inner loops. The result is the value returned, or `none` for another
iteration. -/
def body (n : Nat) (mask : Nat) : M (Scanner ρ) (Option ElementType) := do
  let s ← M.get
  let sd := stm s.state
  match sd.action with
  | none => transition sd .None
  | some (op, arg) => do
    let r ← action n mask op arg
    match r with
    | none => pure (some .ErrorOccurred)
    | some rt =>
      if sd.nofnext = 0 then
        match sd.fallback with
        | some fb => do
          setState fb
          pure (some rt)
        | none => pure (some rt)
      else transition sd rt

/-- The loop of `nextItem`: `k` bounds the iterations, `n` the inner loops. -/
def itemLoop (n : Nat) (mask : Nat) : Nat → M (Scanner ρ) ElementType
  | 0 => M.stop .fuel
  | k + 1 => do
    let r ← body n mask
    match r with
    | some t => pure t
    | none => itemLoop n mask k

/-- xmlscanner.hpp:1097-1194 `nextItem` with fuel `n` for all loops. -/
def nextItem (n : Nat) (mask : Nat := 0xFFFF) : M (Scanner ρ) ElementType :=
  itemLoop n mask n

/-- xmlscanner.hpp:1074-1080 `getError`. -/
def getError : M (Scanner ρ) Err := fun s => (.ok s.error, { s with error := .Ok })

/-- xmlscanner.hpp:1019-1026 copy constructor: `tokstate` and `m_output` are not
copied; the code page of the output character set becomes the default 1
(charset_isolatin.hpp:33). -/
def copy (s : Scanner ρ) (newBufAddr : Nat) : Scanner ρ :=
  { s with
    tok := TokState.new
    bufAddr := newBufAddr
    output := match s.output with
      | .isolatin _ => .isolatin 1
      | e => e }

end Scanner

end TW
