import Verif.Model.StmBuild

/-!
# What a description of a state machine means

A description is a list of blocks: the number of the state and the calls that
describe it. Nothing here says how the calls are executed.
-/

namespace TW.Builder

/-- An element that nobody has described (xmlscanner.hpp:49-54). -/
abbrev blank : RawElem := {}

/-- The transitions named by a call in the block of state `i`. -/
def pairs (i : Nat) : BCall → List (Nat × Int)
  | .tr c more ns => (c :: more).map (·, ns)
  | .self c => [(c, i)]
  | _ => []

/-- The target for the control characters that are not named. -/
def others : BCall → Option Int
  | .other t => some t
  | _ => none

/-- The action given by a call. -/
def actions : BCall → Option (Int × Int)
  | .action op arg => some (op, arg)
  | _ => none

/-- The error given by a call. -/
def misses : BCall → Option Int
  | .miss e => some e
  | _ => none

/-- The fallback state given by a call. -/
def fallbacks : BCall → Option Int
  | .fallback s => some s
  | _ => none

/-- A call of a block is right for itself: there are 18 kinds of control
characters, and a state is a number from 0 to 64. -/
def Okay (i : Nat) (d : BCall) : Prop :=
  (∀ idx, d ≠ .state idx) ∧
  (∀ p ∈ pairs i d, p.1 < 18 ∧ 0 ≤ p.2 ∧ p.2 ≤ 64) ∧ ((pairs i d).map (·.1)).Nodup ∧
  (∀ t, others d = some t → 0 ≤ t ∧ t ≤ 64) ∧ (∀ t, fallbacks d = some t → 0 ≤ t ∧ t ≤ 64)

/-- A call `d'` is possible behind a call `d` of the same block: nothing is given
twice. −1 as error or as action is as good as none. -/
def Behind (i : Nat) (d d' : BCall) : Prop :=
  (∀ p ∈ pairs i d, ∀ p' ∈ pairs i d', p.1 ≠ p'.1) ∧
  (others d ≠ none → pairs i d' = []) ∧
  (∀ a, actions d = some a → a.1 ≠ -1 → actions d' = none) ∧
  (∀ e, misses d = some e → e ≠ -1 → misses d' = none) ∧
  (fallbacks d ≠ none → fallbacks d' = none)

/-- A block that describes state `i`. -/
def Fine (i : Nat) (b : List BCall) : Prop :=
  (∀ d ∈ b, Okay i d) ∧ b.Pairwise (Behind i)

/-- The last one of some values, or what stands for none. -/
def lastOr {α : Type} (none : α) (l : List α) : α := l.getLast?.getD none

/-- The state follows the control character `c` to: the target named for it, or
the first one given for all others, or −1. -/
def target (i : Nat) (b : List BCall) (c : Nat) : Int :=
  match (b.flatMap (pairs i)).lookup c with
  | some t => t
  | none => match b.filterMap others with
    | [] => -1
    | t :: _ => t

/-- The element that a block describes. -/
def elemOf (i : Nat) (b : List BCall) : RawElem where
  fallback := lastOr (-1) (b.filterMap fallbacks)
  miss := lastOr (-1) (b.filterMap misses)
  op := (lastOr (-1, 0) (b.filterMap actions)).1
  arg := (lastOr (-1, 0) (b.filterMap actions)).2
  nofnext := if b.filterMap others = [] then (b.flatMap (pairs i)).length else 18
  next := (List.range 18).map (target i b)

/-- The calls of a description. -/
def layout : List (Int × List BCall) → List BCall
  | [] => []
  | (idx, b) :: bs => .state idx :: (b ++ layout bs)

/-- The blocks describe the states `k`, `k+1`, … -/
def Blocks : Nat → List (Int × List BCall) → Prop
  | _, [] => True
  | k, (idx, b) :: bs => idx % 2 ^ 32 = k ∧ Fine k b ∧ Blocks (k + 1) bs

/-- The elements that the blocks describe. -/
def elems : Nat → List (Int × List BCall) → List RawElem
  | _, [] => []
  | k, (_, b) :: bs => elemOf k b :: elems (k + 1) bs

/-- What an exception says about the call `d` behind the calls `b` of the block of
state `i`. -/
def Reason (i : Nat) (b : List BCall) (d : BCall) : Cause → Prop
  | .InvalidParamChar => ∃ p ∈ pairs i d, 18 ≤ p.1
  | .InvalidParamState =>
    ∃ t, (t ∈ (pairs i d).map (·.2) ∨ others d = some t ∨ fallbacks d = some t) ∧ (t < 0 ∨ 64 < t)
  | .DuplicateStateTransition =>
    ¬ ((pairs i d).map (·.1)).Nodup ∨
      ∃ p ∈ pairs i d, ∃ x ∈ b, others x ≠ none ∨ ∃ p' ∈ pairs i x, p'.1 = p.1
  | .InvalidState =>
    (actions d ≠ none ∧ ∃ x ∈ b, ∃ a, actions x = some a ∧ a.1 ≠ -1) ∨
    (misses d ≠ none ∧ ∃ x ∈ b, ∃ e, misses x = some e ∧ e ≠ -1) ∨
    (fallbacks d ≠ none ∧ ∃ x ∈ b, fallbacks x ≠ none)
  | _ => False

/-- A target given by a call of the block of state `i`. -/
def Gives (i : Nat) (b : List BCall) (t : Int) : Prop :=
  ∃ d ∈ b, t ∈ (pairs i d).map (·.2) ∨ others d = some t ∨ fallbacks d = some t

end TW.Builder
