import Verif.Proofs.PathKeep
import Verif.Props.Path

/-!
# Properties C46, C48, C53: scopes, results and shared states
-/

namespace TW

open Spec.Path TW.Path

/-- C46: for any automaton and any state of a selector, after an open tag, a balanced sequence of items and the close
tag, of each of which any number of results has been taken, the scope stack, the states of the active tokens - and so their
number - and the descendant searches are those before the open tag, and so are the masks of the current scope. -/
theorem C46_scopes {n : Nat} {a b : Item} {k l : Nat} {its : List (Item × Nat)} (ha : a.1 = .OpenTag)
    (hb : b.1 = .CloseTag ∨ b.1 = .CloseTagIm) (hi : Balanced (its.map (·.1))) {s s' : Sel}
    (h : takes n ((a, k) :: its ++ [(b, l)]) s = (.ok (), s')) :
    s'.scopestk = s.scopestk ∧ s'.tokens.length = s.tokens.length ∧
      s'.tokens.map (·.stateidx) = s.tokens.map (·.stateidx) ∧ s'.follows = s.follows ∧
      s'.scope.mask = s.scope.mask ∧ s'.scope.followMask = s.scope.followMask := by
  have h1 := Sel.takes_steps h
  simp only [List.map_append, List.map_cons, List.map_nil] at h1
  obtain ⟨k1, k2, k3, k4, k5⟩ := Sel.Steps.element ha hb (fun h => Sel.Steps.balanced hi h) h1
  refine ⟨k1, ?_, k2, k3, k4, k5⟩
  have := congrArg List.length k2
  simpa using this

/-- C46, walking through all results. -/
theorem C46_scopes_all {n : Nat} {a b : Item} {items : List Item} (ha : a.1 = .OpenTag)
    (hb : b.1 = .CloseTag ∨ b.1 = .CloseTagIm) (hi : Balanced items) {s s' : Sel} {rss : List (List Int)}
    (h : Sel.feed n (a :: items ++ [b]) s = (.ok rss, s')) :
    s'.scopestk = s.scopestk ∧ s'.tokens.length = s.tokens.length ∧
      s'.tokens.map (·.stateidx) = s.tokens.map (·.stateidx) ∧ s'.follows = s.follows ∧
      s'.scope.mask = s.scope.mask ∧ s'.scope.followMask = s.scope.followMask := by
  obtain ⟨k1, k2, k3, k4, k5⟩ := Sel.Steps.element ha hb (fun h => Sel.Steps.balanced hi h) (Sel.feed_steps h)
  refine ⟨k1, ?_, k2, k3, k4, k5⟩
  have := congrArg List.length k2
  simpa using this

/-- The selector of an automaton after some items. -/
def selAfter (defs : List (List PElem.Call)) (items : List Item) : Option Sel :=
  match build .utf8 2000 defs [] with
  | (.ok (), a) => match Sel.mk' a with
    | .ok s => match Sel.feed 100 items s with
      | (.ok _, s') => some s'
      | (.stop _, _) => none
    | .stop _ => none
  | (.stop _, _) => none

/-- `//a/@b`, `//a~` -/
def exDefs : List (List PElem.Call) :=
  [[.follow, .tag (some [97]), .attribute (some [98]), .assign 1], [.follow, .tag (some [97]), .closeTag, .assign 2]]

/-- In the element `r` the element `<a b='c'/>` is read. -/
example : (selAfter exDefs [(.OpenTag, [114])]).map (fun s =>
      (Sel.feed 100 [(.OpenTag, [97]), (.TagAttribName, [98]), (.TagAttribValue, [99]), (.CloseTagIm, [])] s).1) =
        some (.ok [[], [], [1], [2]]) ∧
    Balanced [(.TagAttribName, [98]), (.TagAttribValue, [99])] :=
  ⟨by decide +kernel, .item (by decide) (.item (by decide) .nil)⟩

/-- C48 (partial): for other items than close tags, for any automaton and any state of a selector, walking through the results
with postfix increment gives the same results and the same state as with prefix increment.
The same holds for close tags without results.

Missing: with results at a close tag the scope is closed twice, see `C48_postfix_false`. -/
theorem C48_postfix_partial (n : Nat) (type : ElementType) (key : List Byte) (s : Sel)
    (h : type ≠ .CloseTag ∧ type ≠ .CloseTagIm ∨ ∃ s1, 0 < n ∧ Sel.fetch n (Sel.initElement type key s) = (.ok 0, s1)) :
    Sel.push n true type key s = Sel.push n false type key s := by
  unfold Sel.push
  rw [M.bind_ok (M.modify_run _ _), M.bind_ok (M.modify_run _ _)]
  rcases h with h | ⟨s1, h0, h1⟩
  · have h3 := (Sel.keep_fetch n (Sel.initElement type key s)).type
    rw [Sel.init_type] at h3
    cases h4 : Sel.fetch n (Sel.initElement type key s) with
    | mk x s1 =>
      rw [h4] at h3
      cases x with
      | stop e => rw [M.bind_stop h4, M.bind_stop h4]
      | ok e =>
        have h5 := Sel.walk_post (n := n) n e s1 (by rw [h3]; exact h.1) (by rw [h3]; exact h.2)
        rw [M.bind_ok h4, M.bind_ok h4, M.bind_run, M.bind_run, h5]
  · obtain ⟨m, rfl⟩ : ∃ j, n = j + 1 := ⟨n - 1, by omega⟩
    rw [M.bind_ok h1, M.bind_ok h1]
    unfold Sel.walk
    rfl

/-- The value of an attribute is selected, by the one and the other increment. -/
example : (selAfter exDefs [(.OpenTag, [97]), (.TagAttribName, [98])]).map (fun s =>
    ((Sel.push 100 true .TagAttribValue [99] s).1, Sel.push 100 true .TagAttribValue [99] s ==
      Sel.push 100 false .TagAttribValue [99] s)) = some (.ok [1], true) := by decide +kernel

/-- C48 is false for close tags: after `<r><a></a>` the element `r` is open; with postfix increment it is
closed also. -/
theorem C48_postfix_false : (selAfter exDefs [(.OpenTag, [114]), (.OpenTag, [97])]).map (fun s =>
    ((Sel.push 100 false .CloseTag [97] s).1, (Sel.push 100 false .CloseTag [97] s).2.scopestk.length,
      (Sel.push 100 true .CloseTag [97] s).1, (Sel.push 100 true .CloseTag [97] s).2.scopestk.length)) =
    some (.ok [2], 1, .ok [2], 0) := by decide +kernel

/-- C53: for any automaton, a step with a key defined twice from the same state gives the same state, and the second definition
does not change the automaton. (In an empty automaton the only state is 0.) -/
theorem C53_shared {a a' : Atm} {i j : Nat} {op : Op} {key : List Byte} {follow : Bool} (hi : a = [] → i = 0)
    (h : Atm.defineNext i op (some key) follow a = (.ok j, a')) :
    Atm.defineNext i op (some key) follow a' = (.ok j, a') :=
  Atm.defineNext_again hi h

/-- C53 by the interface: selecting the same tag, attribute or close tag twice from a position. -/
theorem C53_select {e : Enc} {n : Nat} {a a' : Atm} {p q : PElem} {op : Op} {name : List Byte} (hi : a = [] → p.stateidx = 0)
    (h : p.doSelect e n op (some name) a = (.ok q, a')) : p.doSelect e n op (some name) a' = (.ok q, a') := by
  unfold PElem.doSelect at h ⊢
  simp only [] at h ⊢
  cases hk : nameKey e n name with
  | stop er => rw [hk] at h; cases h
  | ok key =>
    rw [hk] at h
    simp only [] at h ⊢
    unfold PElem.select at h ⊢
    cases h1 : Atm.defineNext p.stateidx op (some key) p.follow a with
    | mk x a1 =>
      cases x with
      | stop er => rw [M.bind_stop h1] at h; cases h
      | ok i =>
        rw [M.bind_ok h1] at h
        cases h
        rw [M.bind_ok (C53_shared hi h1)]
        rfl

example : ∃ a', Atm.defineNext 0 .OpenTag (some [97]) true [] = (.ok 2, a') ∧
    Atm.defineNext 0 .OpenTag (some [97]) false a' = (.ok 4, Atm.defineNext 0 .OpenTag (some [97]) false a' |>.2) :=
  ⟨_, rfl, rfl⟩

end TW
