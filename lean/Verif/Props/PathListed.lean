import Verif.Proofs.PathUsed
import Verif.Props.PathGrow

/-!
# C91: the states a selector lists as those that may match next
-/

namespace TW

open TW.Path

variable {se e : Enc}

/-- **C91 (partial)** — The full claim: after all results of an item have been taken, `getTokenTypeMatchingStates` with the follow tokens lists
the states that the next item of this type can use: what is reported for it is the type of a state listed or of one that follows such a state
and waits for nothing; and a state listed that has no range reports all these.
It is true after an open tag, whatever has been fed to the selector before. What is missing: after any other item it is false, see `C91_other`. -/
theorem C91_partial {x : Atm × List PElem} (hb : Built se e x) {s0 s t u : Sel} (h0 : Sel.mk' x.1 = .ok s0) {n m : Nat}
    {items : List (ElementType × List Byte)} {rss : List (List Int)} (hf : Sel.feed n items s0 = (.ok rss, s))
    {key key' : List Byte} {rs rs' : List Int} (h1 : Sel.push n false .OpenTag key s = (.ok rs, t))
    {type : ElementType} (h2 : Sel.push m false type key' t = (.ok rs', u)) :
    ∃ l, Sel.matchingStates type true t = (.ok l, t) ∧
      (∀ ty ∈ rs', ∃ i ∈ l, ∃ st, x.1[i]? = some st ∧ Reports x.1 key' st ty) ∧
      ∀ i ∈ l, ∃ st, x.1[i]? = some st ∧ (st.core.cntEnd = -1 → ∀ ty, ty ≠ 0 → Reports x.1 key' st ty → ty ∈ rs') := by
  have g := (built_good hb).1
  obtain ⟨s0', k1, k2⟩ := mk_safe g
  rw [h0] at k1
  cases k1
  obtain ⟨j1, j2, j3⟩ := feed_keeps items k2 (mk_spent h0) (masked_mk h0) hf
  have p1 := push_keeps j1 h1
  obtain ⟨l, l1, l2⟩ := open_listed j1.atm h1 p1.1 (p1.2.1 j2) h2
  refine ⟨l, l1, l2, fun i hi => ?_⟩
  obtain ⟨l', m1, m2⟩ := matchingStates_safe p1.1 type true
  rw [l1] at m1
  cases m1
  obtain ⟨st, hst⟩ := get_of_lt (m2 i hi)
  exact ⟨st, hst, fun hc ty ht hr => open_used j1 j2 j3 h1 l1 hi hst hc ht hr h2⟩

/-- **C91 (any selector)** — What is reported after an open tag comes from the states listed also for selectors that have been copied, whose
items have not all been iterated to the end, or whose automaton has grown. -/
theorem C91_lived {x : Atm × List PElem} {b : Bool} {s t u : Sel} (h : Lived se e x b s) {n m : Nat} {key key' : List Byte} {rs rs' : List Int}
    (h1 : Sel.push n false .OpenTag key s = (.ok rs, t)) {type : ElementType} (h2 : Sel.push m false type key' t = (.ok rs', u)) :
    ∃ l, Sel.matchingStates type true t = (.ok l, t) ∧ ∀ ty ∈ rs', ∃ i ∈ l, ∃ st, x.1[i]? = some st ∧ Reports x.1 key' st ty := by
  have j1 := (lived_sound h).2
  have p1 := push_keeps j1 h1
  exact open_listed j1.atm h1 p1.1 (p1.2.1 (lived_spent h).2) h2

/-! ## After another item -/

/-- `/a/b` and `//c`. -/
def listedA : Atm :=
  (addExpression .utf8 .utf8 30 2 [47, 47, 99] (addExpression .utf8 .utf8 30 1 [47, 97, 47, 98] []).2).2

theorem listed_built : Built .utf8 .utf8 (listedA, []) := by
  have h1 : addExpression .utf8 .utf8 30 1 [47, 97, 47, 98] [] = (.ok 0, (addExpression .utf8 .utf8 30 1 [47, 97, 47, 98] []).2) := by decide +kernel
  have h2 : addExpression .utf8 .utf8 30 2 [47, 47, 99] (addExpression .utf8 .utf8 30 1 [47, 97, 47, 98] []).2 = (.ok 0, listedA) := by decide +kernel
  exact .step (.step .empty (.text _ _ _ _ _ _ _ h1)) (.text _ _ _ _ _ _ _ h2)

/-- The selector. -/
def listedS : Sel := (Sel.expand (listedA.length + 1) (some 0) { atm := listedA }).2

/-- In the open tag `a`. -/
def listedT : Sel := (Sel.push 20 false .OpenTag [97] listedS).2

/-- In the tag `b` in it. -/
def listedU : Sel := (Sel.push 20 false .OpenTag [98] listedT).2

/-- A copy made while the results of the tag `a` are fetched, in a tag `a`. -/
def listedV : Sel := (Sel.push 20 false .OpenTag [97] (Sel.copy (Sel.initElement .OpenTag [97] listedS))).2

/-- In the tag `c` in it. -/
def listedW : Sel := (Sel.push 20 false .OpenTag [99] listedV).2

/-- **C91 is false after other items**: behind `<a>` and a content only the state of `//c` is listed for an open tag, but the open tag `b` is
reported, with a type that this state does not report. -/
theorem C91_other : ∃ (x : Atm × List PElem) (s t u : Sel) (l : List Nat) (st : State), Built .utf8 .utf8 x ∧ Sel.mk' x.1 = .ok s ∧
    Sel.feed 20 [(.OpenTag, [97]), (.Content, [32])] s = (.ok [[], []], t) ∧ Sel.push 20 false .OpenTag [98] t = (.ok [1], u) ∧
    Sel.matchingStates .OpenTag true t = (.ok l, t) ∧ (∀ i ∈ l, x.1[i]? = some st) ∧ ¬ Reports x.1 [98] st 1 := by
  refine ⟨(listedA, []), listedS, (Sel.feed 20 [(.OpenTag, [97]), (.Content, [32])] listedS).2,
    (Sel.push 20 false .OpenTag [98] (Sel.feed 20 [(.OpenTag, [97]), (.Content, [32])] listedS).2).2, [6],
    { core := { mask := { pos := 1028, neg := 0 }, follow := true }, key := some [99], next := some 7 },
    listed_built, by decide +kernel, by decide +kernel, by decide +kernel, by decide +kernel, by decide +kernel, ?_⟩
  rintro (h | ⟨h, _⟩)
  · cases h
  · exact absurd (h [99] rfl) (by decide)

/-! ## An example -/

/-- In `<a>` the states of `/a/b` and of `//c` are listed, and both are used: the tags `b` and `c` are reported. -/
example : Sel.mk' listedA = .ok listedS ∧ Sel.feed 20 [(.OpenTag, [100]), (.CloseTag, [100])] listedS = (.ok [[], []], (Sel.feed 20 [(.OpenTag, [100]), (.CloseTag, [100])] listedS).2) ∧
    Sel.push 20 false .OpenTag [97] listedS = (.ok [], listedT) ∧ Sel.matchingStates .OpenTag true listedT = (.ok [3, 6], listedT) ∧
    (Sel.push 20 false .OpenTag [98] listedT).1 = .ok [1] ∧ (Sel.push 20 false .OpenTag [99] listedT).1 = .ok [2] ∧
    (Sel.push 20 false .OpenTag [97] listedT).1 = .ok [] := by decide +kernel

/-- The theorem for them. -/
example : ∃ l, Sel.matchingStates .OpenTag true listedT = (.ok l, listedT) ∧
    (∀ ty ∈ ([1] : List Int), ∃ i ∈ l, ∃ st, listedA[i]? = some st ∧ Reports listedA [98] st ty) ∧
    ∀ i ∈ l, ∃ st, listedA[i]? = some st ∧ (st.core.cntEnd = -1 → ∀ ty, ty ≠ 0 → Reports listedA [98] st ty → ty ∈ ([1] : List Int)) := by
  have h0 : Sel.mk' listedA = .ok listedS := by decide +kernel
  have h1 : Sel.push 20 false .OpenTag [97] listedS = (.ok [], listedT) := by decide +kernel
  have h2 : Sel.push 20 false .OpenTag [98] listedT = (.ok [1], listedU) := by decide +kernel
  have h := listed_built
  generalize listedA = A, listedS = S, listedT = T, listedU = U at *
  exact C91_partial h h0 (items := []) (M.pure_run _ _) h1 h2

/-- Also for a copy made in the tag. -/
example : ∃ l, Sel.matchingStates .OpenTag true listedV = (.ok l, listedV) ∧ ∀ ty ∈ ([2] : List Int), ∃ i ∈ l, ∃ st, listedA[i]? = some st ∧ Reports listedA [99] st ty := by
  have h : Lived .utf8 .utf8 (listedA, []) true (Sel.initElement .OpenTag [97] listedS) := .item (.made listed_built (by decide +kernel)) _ _
  have h1 : Sel.push 20 false .OpenTag [97] (Sel.copy (Sel.initElement .OpenTag [97] listedS)) = (.ok [], listedV) := by decide +kernel
  have h2 : Sel.push 20 false .OpenTag [99] listedV = (.ok [2], listedW) := by decide +kernel
  have h' := h.copy
  clear h
  generalize Sel.copy (Sel.initElement .OpenTag [97] listedS) = S at h' h1
  generalize listedA = A, listedV = V, listedW = W at *
  exact C91_lived h' h1 h2

end TW
