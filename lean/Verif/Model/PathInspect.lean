import Verif.Model.PathSelect

/-!
# Inspecting a selector: the states that may match next

`getEmmitedTokens` of xmlpathautomaton.hpp and `getTokenTypeMatchingStates` of xmlpathselect.hpp. The buffers are lists.
-/

namespace TW.Path

/-- The loop at xmlpathautomaton.hpp:373-380. -/
def Atm.emittedFrom (type : ElementType) : Nat → Option Nat → M Atm (List Int)
  | _, none => pure []
  | 0, some _ => M.stop .fuel
  | n + 1, some i => do
    let st ← stateAt i
    let rest ← emittedFrom type n st.link
    pure (if st.core.typeidx ≠ 0 ∧ st.core.mask.matches type = true then st.core.typeidx :: rest else rest)

/-- xmlpathautomaton.hpp:369-381 `getEmmitedTokens`. -/
def Atm.emitted (i : Nat) (type : ElementType) : M Atm (List Int) := do
  let a ← M.get
  let st ← stateAt i
  emittedFrom type (a.length + 1) st.next

namespace Sel

/-- The states of the tokens at some positions that match elements of a type. -/
def matching (type : ElementType) : List Nat → M Sel (List Nat)
  | [] => pure []
  | i :: is => do
    let tk ← tokenAt i
    let rest ← matching type is
    pure (if tk.core.mask.matches type = true then tk.stateidx :: rest else rest)

/-- xmlpathselect.hpp:316-320 `follows[ ti]` for the positions from `k` on. -/
def followsAt (type : ElementType) : Nat → Nat → M Sel (List Nat)
  | 0, _ => pure []
  | m + 1, k => fun s =>
    match s.follows[k]? with
    | none => (.stop .ub, s)
    | some i => (do
        let l ← matching type [i]
        let rest ← followsAt type m (k + 1)
        pure (l ++ rest)) s

/-- xmlpathselect.hpp:299-322 `getTokenTypeMatchingStates`. -/
def matchingStates (type : ElementType) (withFollows : Bool) : M Sel (List Nat) := do
  let s ← M.get
  let l ← matching type (List.range' s.scope.tokenTo (s.tokens.length - s.scope.tokenTo))
  if withFollows then do
    let m ← followsAt type s.scope.followidx 0
    pure (l ++ m)
  else pure l

end Sel

end TW.Path
