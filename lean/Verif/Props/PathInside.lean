import Verif.Proofs.PathInside
import Verif.Props.PathListed

/-!
# C93: the types an automaton lists for what is inside a tag
-/

namespace TW

open TW.Path

variable {se e : Enc}

/-- **C93** — In an open tag, `getTokenTypeMatchingStates` lists the states that an open tag in it can use, and `getEmmitedTokens` lists for each of
them the types for the items of a type in that tag. After the open tag with a name, the states that it has added and that match items of this type
(`getTokenTypeMatchingStates` without the follow tokens) are those: each one that has a type has a type listed for a state listed that fits the name;
and if this state has no range, all types listed for it are the types of states added. Of these, those that have no range are reported with the next
item if it is of this type. -/
theorem C93_inside {x : Atm × List PElem} (hb : Built se e x) {s0 s t u : Sel} (h0 : Sel.mk' x.1 = .ok s0) {n m : Nat}
    {items : List (ElementType × List Byte)} {rss : List (List Int)} (hf : Sel.feed n items s0 = (.ok rss, s))
    {key key' : List Byte} {rs rs' : List Int} (h1 : Sel.push n false .OpenTag key s = (.ok rs, t)) (h2 : Sel.push m false .OpenTag key' t = (.ok rs', u)) (type : ElementType) :
    ∃ l l2, Sel.matchingStates .OpenTag true t = (.ok l, t) ∧ Sel.matchingStates type false u = (.ok l2, u) ∧
      (∀ i ∈ l, ∃ em, Atm.emitted i type x.1 = (.ok em, x.1)) ∧
      (∀ j ∈ l2, ∃ st', x.1[j]? = some st' ∧ ∃ i ∈ l, ∃ st em, x.1[i]? = some st ∧ (∀ k, st.key = some k → k = key') ∧ Atm.emitted i type x.1 = (.ok em, x.1) ∧
        (st'.core.typeidx ≠ 0 → st'.core.typeidx ∈ em)) ∧
      ∀ i ∈ l, ∀ st em, x.1[i]? = some st → (∀ k, st.key = some k → k = key') → Atm.emitted i type x.1 = (.ok em, x.1) → st.core.cntEnd = -1 →
        ∀ ty ∈ em, ∃ j ∈ l2, ∃ st', x.1[j]? = some st' ∧ st'.core.typeidx = ty ∧
          (st'.core.cntEnd = -1 → ∀ m' key'' rs'' u', Sel.push m' false type key'' u = (.ok rs'', u') → ty ∈ rs'') := by
  have g := (built_good hb).1
  obtain ⟨s0', k1, k2⟩ := mk_safe g
  rw [h0] at k1
  cases k1
  obtain ⟨j1, j2, j3⟩ := feed_keeps items k2 (mk_spent h0) (masked_mk h0) hf
  obtain ⟨p1, p2, p3⟩ := push_keeps j1 h1
  obtain ⟨q1, _, _⟩ := push_keeps p1 h2
  obtain ⟨l, l1, m1⟩ := matchingStates_safe p1 .OpenTag true
  obtain ⟨l2, l3, m2⟩ := matchingStates_safe q1 type false
  obtain ⟨a1, a2⟩ := open_adds j1 j2 j3 h1 h2 l1 l3
  refine ⟨l, l2, l1, l3, fun i hi => emitted_safe g (m1 i hi) type, fun j hj => ?_, fun i hi st em hst hkey hem hc ty hty => ?_⟩
  · obtain ⟨i, hi, st, c1, c2, k, st', c3, c4, c5, c6⟩ := a1 j hj
    obtain ⟨em, hem⟩ := emitted_safe g (m1 i hi) type
    exact ⟨st', c5, i, hi, st, em, c1, c2, hem, fun h => (emitted_mem c1 hem _).2 ⟨h, k, st', c3, c4, c6, rfl⟩⟩
  · obtain ⟨d0, k, st', d1, d2, d3, d4⟩ := (emitted_mem hst hem ty).1 hty
    have hk := a2 i hi st hst hc hkey k st' d1 d2 d3
    exact ⟨k, hk, st', d2, d4, fun hc' m' key'' rs'' u' h3 => open_used p1 (p2 j2) (p3 j3) h2 l3 hk d2 hc' d0 (.inl d4) h3⟩

/-! ## An example -/

/-- `/a/b()` and `/a/b@x`. -/
def insideA : Atm :=
  (addExpression .utf8 .utf8 30 2 [47, 97, 47, 98, 64, 120] (addExpression .utf8 .utf8 30 1 [47, 97, 47, 98, 40, 41] []).2).2

theorem inside_built : Built .utf8 .utf8 (insideA, []) := by
  have h1 : addExpression .utf8 .utf8 30 1 [47, 97, 47, 98, 40, 41] [] = (.ok 0, (addExpression .utf8 .utf8 30 1 [47, 97, 47, 98, 40, 41] []).2) := by decide +kernel
  have h2 : addExpression .utf8 .utf8 30 2 [47, 97, 47, 98, 64, 120] (addExpression .utf8 .utf8 30 1 [47, 97, 47, 98, 40, 41] []).2 = (.ok 0, insideA) := by decide +kernel
  exact .step (.step .empty (.text _ _ _ _ _ _ _ h1)) (.text _ _ _ _ _ _ _ h2)

/-- The selector. -/
def insideS : Sel := (Sel.expand (insideA.length + 1) (some 0) { atm := insideA }).2

/-- In the open tag `a`. -/
def insideT : Sel := (Sel.push 20 false .OpenTag [97] insideS).2

/-- In the tag `b` in it. -/
def insideU : Sel := (Sel.push 20 false .OpenTag [98] insideT).2

/-- In `<a>` the state of `b` is listed; for it the type of the content in `b` is listed; in `<b>` its state is there and the content is reported.
An open tag `c` adds no state. -/
example : Sel.matchingStates .OpenTag true insideT = (.ok [3], insideT) ∧ Atm.emitted 3 .Content insideA = (.ok [1], insideA) ∧
    Sel.matchingStates .Content false insideU = (.ok [5], insideU) ∧ (Sel.push 20 false .Content [120] insideU).1 = .ok [1] ∧
    (Sel.matchingStates .Content false (Sel.push 20 false .OpenTag [99] insideT).2).1 = .ok [] := by decide +kernel

/-- The theorem for them. -/
example : ∃ l l2, Sel.matchingStates .OpenTag true insideT = (.ok l, insideT) ∧ Sel.matchingStates .Content false insideU = (.ok l2, insideU) ∧
    (∀ j ∈ l2, ∃ st', insideA[j]? = some st' ∧ ∃ i ∈ l, ∃ st em, insideA[i]? = some st ∧ (∀ k, st.key = some k → k = [98]) ∧ Atm.emitted i .Content insideA = (.ok em, insideA) ∧
      (st'.core.typeidx ≠ 0 → st'.core.typeidx ∈ em)) := by
  have h0 : Sel.mk' insideA = .ok insideS := by decide +kernel
  have h1 : Sel.push 20 false .OpenTag [97] insideS = (.ok [], insideT) := by decide +kernel
  have h2 : Sel.push 20 false .OpenTag [98] insideT = (.ok [], insideU) := by decide +kernel
  have h := inside_built
  generalize insideA = A, insideS = S, insideT = T, insideU = U at *
  obtain ⟨l, l2, k1, k2, _, k3, _⟩ := C93_inside h h0 (items := []) (M.pure_run _ _) h1 h2 .Content
  exact ⟨l, l2, k1, k2, k3⟩

end TW
