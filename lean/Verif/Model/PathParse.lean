import Verif.Model.PathAutomaton

/-!
# The parser of path expressions: xmlpathautomatonparse.hpp

The source is a `CStringIterator`, read with a text scanner. In the code a case of the `switch` first reads the
source and then calls the selection methods, except for an increment of the source behind the call in three places;
the model first reads and then calls. The strings in the identifier buffer are the byte lists passed to the calls. The
return value, an `int` made of a `size_t`, is a natural number.
-/

namespace TW.Path

/-- xmlpathautomatonparse.hpp:64 `ParseState`. -/
inductive PState where
  | SelectStart | SelectTag | SelectAttribute | SelectTagId | SelectAttributeId | SelectContent | SelectCondition
  deriving DecidableEq, Repr

/-- What a case of the `switch` calls on the expression. -/
inductive Act where
  | none
  | call (c : PElem.Call)
  | tags (alt : List (List Byte))
  | attributes (alt : List (List Byte))
  deriving DecidableEq, Repr

/-- xmlpathautomatonparse.hpp:47-57: the offset of the first two colons in sequence. -/
def nsPos : List Byte → Nat → Option Nat
  | [], _ => none
  | b :: bs, i => if b = 58 ∧ bs.head? = some 58 then some i else nsPos bs (i + 1)

namespace Parse

abbrev Src := TextScanner CStr

/-- xmlpathautomatonparse.hpp:267-270 `skipSpaces`. -/
def skipSpaces : Nat → M Src Unit
  | 0 => M.stop .fuel
  | n + 1 => do
    let c ← TextScanner.control
    if c = .Space then do
      TextScanner.skip
      skipSpaces n
    else pure ()

/-- xmlpathautomatonparse.hpp:284-285: `strchr` in the operator characters takes a `char`, and it finds the null at the end. -/
def isOpChar (c : UChar) : Bool := (ascii "*~/(){}[]@,;" ++ [0]).contains (c % 256)

/-- xmlpathautomatonparse.hpp:280-288 `isIdentifierChar`. -/
def isIdentifierChar : M Src Bool := do
  let c ← TextScanner.control
  if c = .Undef ∨ c = .Any then do
    let ch ← TextScanner.chr
    pure (!isOpChar ch)
  else pure false

/-- The loop at xmlpathautomatonparse.hpp:275. -/
def digits : Nat → M Src (List Byte)
  | 0 => M.stop .fuel
  | n + 1 => do
    let c ← TextScanner.chr
    if 48 ≤ c ∧ c ≤ 57 then do
      TextScanner.skip
      let ds ← digits n
      pure (c :: ds)
    else pure []

/-- xmlpathautomatonparse.hpp:272-278 `parseNum`; `none` is −1. -/
def parseNum (n : Nat) : M Src (Option Nat) := do
  let ds ← digits n
  pure (if ds.length = 0 ∨ 8 < ds.length then none else some (ds.foldl (fun v d => v * 10 + (d - 48)) 0))

/-- xmlpathautomatonparse.hpp:297-305 `parseIdentifier`. -/
def parseIdentifier (e : Enc) : Nat → M Src (List Byte)
  | 0 => M.stop .fuel
  | n + 1 => do
    if ← isIdentifierChar then do
      let c ← TextScanner.chr
      TextScanner.skip
      let bs ← parseIdentifier e n
      pure (e.print c ++ bs)
    else pure []

/-- The loop at xmlpathautomatonparse.hpp:312-315. -/
def quoted (e : Enc) (eb : UChar) : Nat → M Src (List Byte)
  | 0 => M.stop .fuel
  | n + 1 => do
    let c ← TextScanner.chr
    if c ≠ 0 ∧ c ≠ eb then do
      TextScanner.skip
      let bs ← quoted e eb n
      pure (e.print c ++ bs)
    else pure []

/-- xmlpathautomatonparse.hpp:306-327 `parseValue`; `none` is the null pointer. -/
def parseValue (e : Enc) (n : Nat) : M Src (Option (List Byte)) := do
  let c ← TextScanner.chr
  if c = 34 ∨ c = 39 then do
    TextScanner.skip
    let bs ← quoted e c n
    let c ← TextScanner.chr
    if c ≠ 0 then TextScanner.skip
    pure (some bs)
  else do
    if ← isIdentifierChar then do
      let bs ← parseIdentifier e n
      pure (some bs)
    else pure none

/-- The loop at xmlpathautomatonparse.hpp:332-338; `none` is the empty list of an error. -/
def identifiers (e : Enc) (n : Nat) : Nat → M Src (Option (List (List Byte)))
  | 0 => M.stop .fuel
  | m + 1 => do
    TextScanner.skip
    skipSpaces n
    if ← isIdentifierChar then do
      let bs ← parseIdentifier e n
      skipSpaces n
      let c ← TextScanner.chr
      if c = 44 then do
        let r ← identifiers e n m
        pure (r.map (bs :: ·))
      else pure (some [bs])
    else pure none

/-- xmlpathautomatonparse.hpp:328-342 `parseIdentifierList`, at a bracket '{'. -/
def identifierList (e : Enc) (n : Nat) : M Src (Option (List (List Byte))) := do
  match ← identifiers e n n with
  | none => pure none
  | some l => do
    let c ← TextScanner.chr
    if c ≠ 125 then pure none
    else do
      TextScanner.skip
      pure (some l)

/-- xmlpathautomatonparse.hpp:95-108, behind "[@". -/
def attributeCondition (e : Enc) (n : Nat) : M Src (Option Act) := do
  TextScanner.skip
  skipSpaces n
  if ← isIdentifierChar then do
    let name ← parseIdentifier e n
    skipSpaces n
    let c ← TextScanner.chr
    if c ≠ 61 then pure none
    else do
      TextScanner.skip
      skipSpaces n
      let value ← parseValue e n
      skipSpaces n
      match value with
      | none => pure none
      | some v => do
        let c ← TextScanner.chr
        if c ≠ 93 then pure none
        else do
          TextScanner.skip
          pure (some (.call (.ifAttribute (some name) (some v))))
  else pure none

/-- xmlpathautomatonparse.hpp:110-145, behind "[". -/
def rangeCondition (n : Nat) : M Src (Option Act) := do
  skipSpaces n
  if ← isIdentifierChar then do
    match ← parseNum n with
    | none => pure none
    | some i => do
      skipSpaces n
      let c ← TextScanner.chr
      if c = 44 then do
        TextScanner.skip
        skipSpaces n
        let c ← TextScanner.chr
        if c = 93 then do
          TextScanner.skip
          pure (some (.call (.from' i)))
        else if ← isIdentifierChar then do
          match ← parseNum n with
          | none => pure none
          | some j => do
            skipSpaces n
            let c ← TextScanner.chr
            if c ≠ 93 then pure none
            else do
              TextScanner.skip
              pure (some (.call (.range i j)))
        else pure none
      else if c = 93 then do
        TextScanner.skip
        pure (some (.call (.index i)))
      else pure none
  else pure none

/-- xmlpathautomatonparse.hpp:70-209: one turn of the loop at the character `c`; `none` if the position of the source is returned. -/
def turn (e : Enc) (n : Nat) (st : PState) (c : UChar) : M Src (Option (Act × PState)) :=
  if c = 64 then
    if st ≠ .SelectStart ∧ st ≠ .SelectTag ∧ st ≠ .SelectTagId ∧ st ≠ .SelectCondition then pure none
    else do
      TextScanner.skip
      pure (some (.none, .SelectAttribute))
  else if c = 47 then
    if st ≠ .SelectStart ∧ st ≠ .SelectCondition ∧ st ≠ .SelectTagId then pure none
    else do
      TextScanner.skip
      let c ← TextScanner.chr
      if c = 47 then do
        TextScanner.skip
        pure (some (.call .follow, .SelectTag))
      else pure (some (.none, .SelectTag))
  else if c = 91 then
    if st ≠ .SelectStart ∧ st ≠ .SelectTag ∧ st ≠ .SelectTagId ∧ st ≠ .SelectCondition then pure none
    else do
      TextScanner.skip
      skipSpaces n
      let c ← TextScanner.chr
      let a ← if c = 64 then attributeCondition e n else rangeCondition n
      pure (a.map (·, .SelectCondition))
  else if c = 40 then
    if st ≠ .SelectStart ∧ st ≠ .SelectTag ∧ st ≠ .SelectTagId ∧ st ≠ .SelectCondition then pure none
    else do
      TextScanner.skip
      skipSpaces n
      let c ← TextScanner.chr
      if c ≠ 41 then pure none
      else do
        TextScanner.skip
        pure (some (.call .content, .SelectContent))
  else if c = 42 then
    if st ≠ .SelectStart ∧ st ≠ .SelectTag ∧ st ≠ .SelectAttribute then pure none
    else do
      TextScanner.skip
      if st = .SelectAttribute then pure (some (.call (.attribute none), .SelectAttributeId))
      else pure (some (.call (.tag none), .SelectTagId))
  else if c = 123 then
    if st ≠ .SelectStart ∧ st ≠ .SelectTag ∧ st ≠ .SelectAttribute then pure none
    else do
      match ← identifierList e n with
      | none => pure none
      | some alt =>
        if st = .SelectAttribute then pure (some (.attributes alt, .SelectAttributeId))
        else pure (some (.tags alt, .SelectTagId))
  else if c = 126 then
    if st ≠ .SelectTagId ∧ st ≠ .SelectStart ∧ st ≠ .SelectCondition then pure none
    else do
      TextScanner.skip
      pure (some (.call .closeTag, .SelectContent))
  else
    if st ≠ .SelectStart ∧ st ≠ .SelectTag ∧ st ≠ .SelectAttribute then pure none
    else do
      if ← isIdentifierChar then do
        let bs ← parseIdentifier e n
        if st = .SelectAttribute then pure (some (.call (.attribute (some bs)), .SelectAttributeId))
        else pure (some (.call (.tag (some bs)), .SelectTagId))
      else pure none

end Parse

/-- xmlpathautomatonparse.hpp:216 `ExprState_FOREACH`. -/
def forEach (e : Enc) (n : Nat) (c : PElem.Call) : List PElem → M Atm (List PElem)
  | [] => pure []
  | p :: ps => do
    let p ← PElem.call e n p c
    let ps ← forEach e n c ps
    pure (p :: ps)

/-- xmlpathautomatonparse.hpp:227-250 `selectTagAlt`, `selectAttributeAlt`. -/
def forAlt (e : Enc) (n : Nat) (mk : Option (List Byte) → PElem.Call) (ps : List PElem) :
    List (List Byte) → M Atm (List PElem)
  | [] => pure []
  | a :: alt => do
    let qs ← forEach e n (mk (some a)) ps
    let rs ← forAlt e n mk ps alt
    pure (qs ++ rs)

/-- The calls of a turn of the loop. -/
def Act.run (e : Enc) (n : Nat) (ps : List PElem) : Act → M Atm (List PElem)
  | .none => pure ps
  | .call c => forEach e n c ps
  | .tags alt => forAlt e n .tag ps alt
  | .attributes alt => forAlt e n .attribute ps alt

/-- The parser at work: source and automaton. -/
structure Parser where
  src : Parse.Src
  atm : Atm

namespace Parser

/-- Read the source. -/
def onSrc {α : Type} (x : M Parse.Src α) : M Parser α := M.zoom Parser.src (fun t p => { p with src := t }) x
/-- Work on the automaton. -/
def onAtm {α : Type} (x : M Atm α) : M Parser α := M.zoom Parser.atm (fun a p => { p with atm := a }) x

/-- The loop at xmlpathautomatonparse.hpp:68-210 and the call behind; the result is the return value. -/
def loop (e : Enc) (n : Nat) (type : Int) : Nat → PState → List PElem → M Parser Nat
  | 0, _, _ => M.stop .fuel
  | m + 1, st, ps => do
    let c ← onSrc TextScanner.chr
    if c = 0 then do
      let _ ← onAtm (forEach e n (.assign type) ps)
      pure 0
    else do
      match ← onSrc (Parse.turn e n st c) with
      | none => do
        let p ← M.get
        pure (p.src.getPosition + 1)
      | some (act, st) => do
        let ps ← onAtm (act.run e n ps)
        onSrc (Parse.skipSpaces n)
        loop e n type m st ps

end Parser

/-- xmlpathautomatonparse.hpp:45-213 `addExpression`. `se` is the character set of the source, `e` the one of the automaton,
`n` bounds the loops. -/
def addExpression (se e : Enc) (n : Nat) (type : Int) (esrc : List Byte) : M Atm Nat := fun a =>
  match nsPos esrc 0 with
  | some i => (.ok (i + 1), a)
  | none =>
    match Parser.loop e n type n .SelectStart [{}] { src := TextScanner.mk' se (CStr.mk' esrc), atm := a } with
    | (r, p) => (r, p.atm)

end TW.Path
