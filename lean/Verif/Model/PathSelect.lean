import Verif.Model.PathAutomaton

/-!
# The path selector: xmlpathselect.hpp

`getTokenTypeMatchingStates` is in `PathInspect`. The stacks are vectors (`DefaultStackType`).
-/

namespace TW.Path

/-- xmlpathautomaton.hpp:385-398 `Token`. -/
structure Token where
  core : Core
  stateidx : Nat
  deriving DecidableEq, Repr

/-- xmlpathautomaton.hpp:402-431 `Scope`. -/
structure Scope where
  mask : Mask := {}
  followMask : Mask := {}
  tokenFrom : Nat := 0
  tokenTo : Nat := 0
  followidx : Nat := 0
  deriving DecidableEq, Repr

/-- xmlpathselect.hpp:50, 57-86: the selector with its context. The key with its size is `none` for
the null pointer. The tops of `scopestk` and `triggers` are the heads of the lists, the other
vectors are in their order. -/
structure Sel where
  atm : Atm
  scopestk : List Scope := []
  follows : List Nat := []
  triggers : List Int := []
  tokens : List Token := []
  type : ElementType := .Content
  key : Option (List Byte) := none
  scope : Scope := {}
  iter : Nat := 0
  deriving DecidableEq, Repr

namespace Sel

/-- `tokens[i]`. -/
def tokenAt (i : Nat) : M Sel Token := fun s =>
  match s.tokens[i]? with
  | some t => (.ok t, s)
  | none => (.stop .ub, s)

/-- Change the core of `tokens[i]`. -/
def change (i : Nat) (g : Core → Core) : M Sel Unit := fun s =>
  match s.tokens[i]? with
  | some t => (.ok (), { s with tokens := s.tokens.set i { t with core := g t.core } })
  | none => (.stop .ub, s)

/-- `atm->states[i]`. -/
def stateAt (i : Nat) : M Sel State := fun s =>
  match s.atm[i]? with
  | some t => (.ok t, s)
  | none => (.stop .ub, s)

/-- One iteration of the loop of `expand`. -/
def activate (st : State) (i : Nat) (s : Sel) : Sel :=
  let s := { s with scope := { s.scope with mask := s.scope.mask.join st.core.mask } }
  if st.core.mask.empty ∧ st.core.typeidx ≠ 0 then { s with triggers := st.core.typeidx :: s.triggers }
  else
    let s := if st.core.follow then
        { s with scope := { s.scope with followMask := s.scope.followMask.join st.core.mask }
                 follows := s.follows ++ [s.tokens.length] }
      else s
    { s with tokens := s.tokens ++ [{ core := st.core, stateidx := i }] }

/-- xmlpathselect.hpp:90-111 `expand`. -/
def expand : Nat → Option Nat → M Sel Unit
  | _, none => pure ()
  | 0, some _ => M.stop .fuel
  | n + 1, some i => do
    let st ← stateAt i
    M.modify (activate st i)
    expand n st.link

/-- xmlpathselect.hpp:117-136 `initProcessElement`. -/
def initElement (type : ElementType) (key : List Byte) (s : Sel) : Sel :=
  let from' := if s.type = .OpenTag then s.scope.tokenTo else s.scope.tokenFrom
  let scope := { s.scope with tokenFrom := from', tokenTo := s.tokens.length, followidx := s.follows.length }
  let s := { s with scope, type, key := some key, iter := from' }
  if type = .OpenTag then
    { s with scopestk := scope :: s.scopestk, scope := { scope with mask := scope.followMask.match .OpenTag } }
  else s

/-- xmlpathselect.hpp:138-150 `closeProcessElement`. `resize` to more elements than there are adds
default elements. -/
def closeElement (s : Sel) : Sel :=
  if s.type = .CloseTag ∨ s.type = .CloseTagIm then
    match s.scopestk with
    | [] => s
    | sc :: stk =>
      { s with scope := sc, scopestk := stk
               follows := s.follows.take sc.followidx ++ List.replicate (sc.followidx - s.follows.length) 0
               tokens := s.tokens.take sc.tokenTo ++
                 List.replicate (sc.tokenTo - s.tokens.length) { core := {}, stateidx := 0 } }
  else s

/-- xmlpathselect.hpp:166-169 and 222-225: one element of the range has been seen. -/
def count (c : Core) : Core :=
  { c with cntEnd := c.cntEnd - 1, mask := if c.cntEnd - 1 = 0 then {} else c.mask }

/-- xmlpathselect.hpp:155-180 `produce`. -/
def produce (i : Nat) (st : State) : M Sel Unit := do
  let s ← M.get
  let tk ← tokenAt i
  if tk.core.cntEnd = -1 then expand (s.atm.length + 1) st.next
  else if 0 < tk.core.cntEnd then do
    change i count
    if tk.core.cntStart ≤ 0 then expand (s.atm.length + 1) st.next
    else change i fun c => { c with cntStart := c.cntStart - 1 }
  else pure ()

/-- xmlpathselect.hpp:213-232: the type emitted by a matching token. -/
def emit (i : Nat) : M Sel Int := do
  let tk ← tokenAt i
  if tk.core.typeidx ≠ 0 then
    if tk.core.cntEnd = -1 then pure tk.core.typeidx
    else if 0 < tk.core.cntEnd then do
      change i count
      if tk.core.cntStart ≤ 0 then pure tk.core.typeidx
      else do
        change i fun c => { c with cntStart := c.cntStart - 1 }
        pure 0
    else pure 0
  else pure 0

/-- xmlpathselect.hpp:196-213: the follow states of a token are activated if the key matches. -/
def follow (i : Nat) (key : List Byte) (st : State) : M Sel Unit :=
  match st.key with
  | some k => if k = key then produce i st else pure ()
  | none => produce i st

/-- xmlpathselect.hpp:237-241: a token must not match anymore after an item it rejects. -/
def giveUp (i : Nat) (type : ElementType) : M Sel Unit := do
  let tk ← tokenAt i
  if tk.core.mask.rejects type then change i fun c => { c with mask := {} } else pure ()

/-- xmlpathselect.hpp:193-236: what a matching token does. -/
def fire (i : Nat) (type : ElementType) (key : List Byte) : M Sel Int := do
  let tk ← tokenAt i
  if tk.core.mask.matches type then do
    let st ← stateAt tk.stateidx
    follow i key st
    emit i
  else pure 0

/-- xmlpathselect.hpp:185-244 `match`. -/
def matchToken (i : Nat) : M Sel Int := do
  let s ← M.get
  match s.key with
  | none => pure 0
  | some key =>
    if s.scope.tokenTo ≤ i then pure 0
    else do
      let rt ← fire i s.type key
      giveUp i s.type
      pure rt

/-- The loop at xmlpathselect.hpp:254-281. -/
def fetchLoop : Nat → M Sel Int
  | 0 => M.stop .fuel
  | n + 1 => do
    let s ← M.get
    if s.iter < s.scope.tokenTo then do
      let type ← matchToken s.iter
      M.modify fun s => { s with iter := s.iter + 1 }
      if type = 0 then fetchLoop n else pure type
    else
      let ii := s.iter - s.scope.tokenTo
      let visit := fun t => do
        let type ← matchToken t
        M.modify fun s => { s with iter := s.iter + 1 }
        if type = 0 then fetchLoop n else pure type
      let rest := match s.triggers with
        | t :: ts => do
          M.modify fun s => { s with triggers := ts }
          if t = 0 then fetchLoop n else pure t
        | [] => do
          M.modify fun s => { s with key := none }
          pure 0
      if ii < s.scope.followidx then
        match s.follows[ii]? with
        | some t => if t < s.scope.tokenFrom then visit t else rest
        | none => M.stop .ub
      else rest

/-- xmlpathselect.hpp:248-289 `fetch`. -/
def fetch (n : Nat) : M Sel Int := do
  let s ← M.get
  if s.scope.mask.matches s.type then fetchLoop n
  else do
    M.modify fun s => { s with key := none }
    pure 0

/-- xmlpathselect.hpp:327-331 constructor. -/
def mk' (atm : Atm) : Res Sel :=
  match expand (atm.length + 1) (if 0 < atm.length then some 0 else none) { atm } with
  | (.ok _, s) => .ok s
  | (.stop e, _) => .stop e

/-- xmlpathselect.hpp:335-336 copy constructor: the context is a new one. -/
def copy (s : Sel) : Sel :=
  { atm := s.atm, scopestk := s.scopestk, follows := s.follows, triggers := s.triggers, tokens := s.tokens }

/-- The loop over the results of an item; `post` tells if with `itr++`: then an iterator is copied and destroyed
(xmlpathselect.hpp:404-407, 442), and the destructor closes the element. -/
def walk (n : Nat) (post : Bool) : Nat → Int → M Sel (List Int)
  | 0, _ => M.stop .fuel
  | k + 1, element =>
    if element = 0 then pure []
    else do
      let e ← fetch n
      if post then M.modify closeElement
      let es ← walk n post k e
      pure (element :: es)

/-- xmlpathselect.hpp:397-407, 455: feed the selector with an item and walk through all
results, then destroy the iterator. -/
def push (n : Nat) (post : Bool) (type : ElementType) (key : List Byte) : M Sel (List Int) := do
  M.modify (initElement type key)
  let e ← fetch n
  let es ← walk n post n e
  M.modify closeElement
  pure es

/-- The same, but only the first `k + 1` results are fetched before the iterator is destroyed. -/
def pushSome (n : Nat) (type : ElementType) (key : List Byte) (k : Nat) : M Sel Unit := do
  M.modify (initElement type key)
  let _ ← fetch n
  let rec go : Nat → M Sel Unit
    | 0 => pure ()
    | k + 1 => do let _ ← fetch n; go k
  go k
  M.modify closeElement

/-- Feed a sequence of items, walking with prefix increment. -/
def feed (n : Nat) : List (ElementType × List Byte) → M Sel (List (List Int))
  | [] => pure []
  | (type, key) :: items => do
    let r ← push n false type key
    let rs ← feed n items
    pure (r :: rs)

end Sel

end TW.Path
