import Verif.Proofs.Reader

/-!
# The scanner as a step machine

`nextItem` can be interrupted at every read of a character by the end of a chunk; its
member variables `state` and `tokstate` tell where to continue. `Mach.step` is what
`nextItem` does from one such point to the next, on a stream that is completely
available. A configuration is a `Scanner` whose source is just the offset of the
current character. That `nextItem` on a text scanner runs this machine is proved in
`Verif/Proofs/Simulation.lean`.
-/

namespace TW

open Spec

/-- Configuration of the machine. -/
abbrev Cfg := Scanner Nat

namespace Mach

variable (e : Enc) (f : Nat → Byte) (mask : Nat)

/-- Class of the current character. -/
def cls (s : Cfg) : Cc := controlCharMap (uasc e f s.src)

/-- ASCII value of the current character, 0 if it is not ASCII. -/
def asc (s : Cfg) : Byte := if uasc e f s.src < 128 then uasc e f s.src else 0

/-- Go to the next character. -/
def adv (s : Cfg) : Cfg := { s with src := s.src + ulen e f s.src }

/-- The current character in the output character set. -/
def copied (out : Enc) (k : Nat) : List Byte :=
  if e = out then slice f k (ulen e f k) else out.print (uval e f k)

variable {e f}

/-- Print characters to the output. -/
def pushes (cs : List UChar) (s : Cfg) : Cfg := { s with out := s.out ++ cs.flatMap s.output.print }

/-- Change `tokstate`. -/
def tokTo (g : TokState → TokState) (s : Cfg) : Cfg := { s with tok := g s.tok }

/-- `tokstate.init(id)`. -/
def initTok (id : TokId) (s : Cfg) : Cfg := tokTo (fun t => t.init id) s

/-- `tokstate.id = id`. -/
def idTo (id : TokId) (s : Cfg) : Cfg := tokTo (fun t => { t with id }) s

/-- The characters printed by `fallbackEntity`. -/
def fallbackChars (t : TokState) : List UChar :=
  match t.id with
  | .Start | .ParsingDone | .ParsingKey | .ParsingToken => []
  | .ParsingEntity => [38]
  | .ParsingNumericEntity => [38, 35]
  | .ParsingNumericBaseEntity => 38 :: 35 :: t.buf.take t.pos
  | .ParsingNamedEntity => 38 :: t.buf.take t.pos

/-- Give up the entity: print what has been read of it. -/
def fallback (s : Cfg) : Cfg := initTok .ParsingToken (pushes (fallbackChars s.tok) s)

/-- Store a character in the entity buffer. -/
def store (ch : Byte) (s : Cfg) : Cfg :=
  tokTo (fun t => { t with buf := t.buf.set t.pos ch, pos := t.pos + 1 }) s

/-- The character a named entity stands for. -/
def entityChar (s : Cfg) (name : List Byte) : Option UChar :=
  match Scanner.predefinedEntity name with
  | some c => some c
  | none => match s.entityMap with
    | some m => (m.find? fun x => x.1 = s.bufAddr).map (·.2)
    | none => none

variable (e f)

/-- The transition on the current character. -/
def trans (sd : Elem) (rt : ElementType) (s : Cfg) : Option ElementType × Cfg :=
  let s1 := idTo .Start s
  match sd.next (cls e f s) with
  | some ns => (Scanner.loopEnd rt, adv e f { s1 with state := ns })
  | none =>
    match sd.fallback with
    | some fb => (Scanner.loopEnd rt, { s1 with state := fb })
    | none =>
      match sd.miss with
      | some er => (some .ErrorOccurred, { s1 with error := er })
      | none => (some .ErrorOccurred,
          { s1 with error := if cls e f s = .EndOfText then .ErrUnexpectedEndOfText else .ErrInternal })

/-- One character of a token. -/
def charStep (s : Cfg) : Cfg :=
  if asc e f s = 13 then tokTo (fun t => { t with eolCR := true }) (pushes [10] s)
  else if asc e f s = 10 then
    tokTo (fun t => { t with eolCR := false }) (if s.tok.eolCR then s else pushes [10] s)
  else tokTo (fun t => { t with eolCR := false }) { s with out := s.out ++ copied e f s.output s.src }

/-- Inside a token. -/
def tokStep (isTok : Cc → Bool) (s : Cfg) : Option ElementType × Cfg :=
  match s.tok.id with
  | .Start => (none, idTo .ParsingToken { s with tokenpos := s.src, out := [] })
  | .ParsingToken =>
    if isTok (cls e f s) then (none, adv e f (charStep e f s))
    else if cls e f s = .Amp then (none, idTo .ParsingEntity (adv e f s))
    else (none, initTok .ParsingDone s)
  | .ParsingEntity =>
    if asc e f s = 35 then (none, idTo .ParsingNumericEntity (adv e f s))
    else (none, idTo .ParsingNamedEntity s)
  | .ParsingNumericEntity =>
    if asc e f s = 120 then
      (none, tokTo (fun t => { t with id := .ParsingNumericBaseEntity, base := 16 }) (adv e f s))
    else (none, tokTo (fun t => { t with id := .ParsingNumericBaseEntity, base := 10 }) s)
  | .ParsingNumericBaseEntity =>
    if asc e f s = 59 then
      if 0xFFFFFFFF < s.tok.value then (none, fallback (store 59 s))
      else (none, adv e f (initTok .ParsingToken (pushes [s.tok.value % 2 ^ 32] s)))
    else if s.tok.base ≤ hexVal (asc e f s) then (none, fallback s)
    else
      let s1 := adv e f (tokTo (fun t =>
        { t with value := (t.value * t.base + hexVal (asc e f s)) % 2 ^ 64 })
        (store (asc e f s) s))
      (none, if s1.tok.pos = 16 then fallback s1 else s1)
  | .ParsingNamedEntity =>
    if s.tok.pos < 15 ∧ asc e f s ≠ 59 ∧ cls e f s = .Any then (none, adv e f (store (asc e f s) s))
    else if asc e f s = 59 then
      let buf := s.tok.buf.set s.tok.pos 0
      let s1 := tokTo (fun t => { t with buf }) s
      match entityChar s (buf.takeWhile (· ≠ 0)) with
      | some c => (none, adv e f (initTok .ParsingToken (pushes [c] s1)))
      | none => (some .ErrorOccurred,
          initTok .Start { s1 with error := .ErrUndefinedCharacterEntity })
    else (none, fallback s)
  | .ParsingKey => (some .ErrorOccurred, initTok .Start { s with error := .ErrInternal })
  | .ParsingDone => (none, s)

/-- Inside a key word. -/
def keyStep (sd : Elem) (op : STMAction) (str : List Byte) (s : Cfg) : Option ElementType × Cfg :=
  let rt : ElementType := if op = .ExpectIdentifierXML then .HeaderStart else .None
  if s.tok.id = .ParsingDone then trans e f sd rt s
  else
    match str[s.tok.pos]? with
    | none => (none, (if op = .ExpectIdentifierXML then pushes [63, 120, 109, 108] else id)
        (initTok .ParsingDone s))
    | some c =>
      if asc e f s = c then
        (none, tokTo (fun t => { t with id := .ParsingKey, pos := t.pos + 1 }) (adv e f s))
      else (some .ErrorOccurred, initTok .ParsingDone
        { s with error := if cls e f s = .EndOfText then .ErrUnexpectedEndOfText else .ErrSyntaxToken })

/-- One step of `nextItem`: the result it returns, if it returns, and the next
configuration. -/
def step (s : Cfg) : Option ElementType × Cfg :=
  let sd := stm s.state
  match sd.action with
  | none => trans e f sd .None s
  | some (op, arg) =>
    match tokenDefs op with
    | some isTok =>
      if s.tok.id = .ParsingDone then trans e f sd arg s
      else if mask.testBit arg.toNat then tokStep e f isTok s
      else if isTok (cls e f s) || cls e f s = .Amp then (none, adv e f s)
      else trans e f sd arg s
    | none =>
      match stringDefs op with
      | some str => keyStep e f sd op str s
      | none =>
        let s1 := { s with tokenpos := s.src, out := [] }
        if sd.nofnext = 0 then
          (some arg, match sd.fallback with
            | some fb => { s1 with state := fb }
            | none => s1)
        else trans e f sd arg s1

end Mach

end TW
