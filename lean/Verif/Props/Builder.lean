import Verif.Proofs.Builder
import Verif.Props.Table

/-!
# C115: the builder of state machines
-/

namespace TW

open Builder

/-- C115: the calls of the builder raise no exception exactly if they are a
description of at most 64 states in ascending order; then the table has for each
state the element that its block describes, and blank elements behind. -/
theorem C115_table (cs : List BCall) (s : BStm) :
    BStm.run cs BStm.init = (.ok (), s) ↔
      ∃ bs, cs = layout bs ∧ Blocks 0 bs ∧ bs.length ≤ 64 ∧
        s = ⟨elems 0 bs ++ List.replicate (64 - bs.length) blank, bs.length⟩ :=
  run_iff cs s

/-- A small machine: state 0 stays on blanks, goes to state 1 with `<` and has an
error for all the rest; state 1 has an action and goes back with everything. -/
def smallMachine : List (Int × List BCall) :=
  [(0, [.self 4, .tr 6 [7] 1, .miss 3]), (1, [.action 2 5, .tr 1 [] 0, .other 1, .fallback 0])]

theorem smallMachine_blocks : Blocks 0 smallMachine := by
  refine ⟨rfl, ?_, rfl, ?_, trivial⟩
  · refine ⟨?_, ?_⟩
    · intro d hd
      simp only [List.mem_cons, List.not_mem_nil, or_false] at hd
      rcases hd with rfl | rfl | rfl <;>
        simp [Okay, pairs, others, fallbacks]
    · simp [Behind, pairs, others, fallbacks, actions, misses]
      omega
  · refine ⟨?_, ?_⟩
    · intro d hd
      simp only [List.mem_cons, List.not_mem_nil, or_false] at hd
      rcases hd with rfl | rfl | rfl | rfl <;>
        simp [Okay, pairs, others, fallbacks]
    · simp [Behind, pairs, others, fallbacks, actions, misses]

example : Blocks 0 smallMachine ∧ smallMachine.length ≤ 64 := ⟨smallMachine_blocks, by decide⟩

/-- The element of state 0 of the small machine. -/
example : elemOf 0 [.self 4, .tr 6 [7] 1, .miss 3] =
    { miss := 3, nofnext := 3
      next := [-1, -1, -1, -1, 0, -1, 1, 1, -1, -1, -1, -1, -1, -1, -1, -1, -1, -1] } := by
  decide +kernel

/-- The element of state 1. -/
example : elemOf 1 [.action 2 5, .tr 1 [] 0, .other 1, .fallback 0] =
    { fallback := 0, op := 2, arg := 5, nofnext := 18
      next := [1, 0, 1, 1, 1, 1, 1, 1, 1, 1, 1, 1, 1, 1, 1, 1, 1, 1] } := by
  decide +kernel

/-- C115: the exception raised by a call behind a description says what is wrong:
for a new state its number or the size of the table, for another call that there
is no state yet or one of the reasons of `Builder.Reason`. -/
theorem C115_exception {bs : List (Int × List BCall)} (hb : Blocks 0 bs) (hl : bs.length ≤ 64)
    {s s' : BStm} (hs : BStm.run (layout bs) BStm.init = (.ok (), s)) {d : BCall} {x : Cause}
    (h : BStm.exec d s = (.stop (.throw x), s')) :
    (∃ idx, d = .state idx ∧
      ((x = .StateNumbersNotAscending ∧ idx % 2 ^ 32 ≠ bs.length) ∨
        (x = .DimOutOfRange ∧ bs.length = 64 ∧ idx % 2 ^ 32 = 64))) ∨
    ((∀ idx, d ≠ .state idx) ∧ bs = [] ∧ x = .InvalidState) ∨
    ((∀ idx, d ≠ .state idx) ∧
      ∃ init idx b, bs = init ++ [(idx, b)] ∧ Reason init.length b d x) := by
  have hs' := (run_iff (layout bs) _).2 ⟨bs, rfl, hb, hl, rfl⟩
  rw [hs] at hs'
  obtain rfl : s = _ := (Prod.mk.inj hs').2
  by_cases hd : ∃ idx, d = .state idx
  · obtain ⟨idx, rfl⟩ := hd
    left
    refine ⟨idx, rfl, ?_⟩
    have h' : BStm.newState idx _ = _ := h
    unfold BStm.newState at h'
    by_cases h1 : ((bs.length : Nat) : Int) ≠ idx % 2 ^ 32
    · rw [if_pos h1] at h'
      cases h'
      exact .inl ⟨rfl, fun e => h1 e.symm⟩
    · rw [if_neg h1] at h'
      by_cases h2 : 64 ≤ bs.length
      · rw [if_pos h2] at h'
        cases h'
        have h3 := Decidable.not_not.1 h1
        exact .inr ⟨rfl, by omega, by omega⟩
      · rw [if_neg h2] at h'
        cases h'
  · have hd' : ∀ idx, d ≠ .state idx := fun idx e => hd ⟨idx, e⟩
    right
    rcases List.eq_nil_or_concat bs with rfl | ⟨init, ⟨idx, b⟩, rfl⟩
    · left
      rw [exec_empty hd' rfl] at h
      cases h
      exact ⟨hd', rfl, rfl⟩
    · right
      rw [List.concat_eq_append] at hb hl h ⊢
      refine ⟨hd', init, idx, b, rfl, ?_⟩
      have hsp := blocks_snoc hb
      have hel := elems_snoc init 0 idx b
      rw [Nat.zero_add] at hsp hel
      have hlen : (elems 0 init).length = init.length := elems_length _ _
      rw [hel] at h
      simp only [List.append_assoc, List.cons_append, List.nil_append, List.length_append,
        List.length_cons, List.length_nil, Nat.zero_add] at h
      have hx := exec_at hd' (elems 0 init) (List.replicate (64 - (init.length + 1)) blank)
        (elemOf init.length b)
      rw [hlen] at hx
      cases hu : upd init.length d (elemOf init.length b) with
      | ok e' =>
        rw [hx.1 e' hu] at h
        cases h
      | error c =>
        obtain ⟨s2, h2⟩ := hx.2 c hu
        rw [h2] at h
        cases h
        exact upd_error hsp hd' hu

/-- A second transition with the same character. -/
example : ∃ s, BStm.run (layout smallMachine) BStm.init = (.ok (), s) ∧
    BStm.exec (.tr 1 [] 0) s = (.stop (.throw .DuplicateStateTransition), s) := by
  refine ⟨_, (run_iff _ _).2 ⟨_, rfl, smallMachine_blocks, by decide, rfl⟩, ?_⟩
  decide +kernel

/-- C115: whatever a caller does, also behind exceptions, the builder does not
write outside of its array. -/
theorem C115_safe (cs : List BCall) :
    (∀ r ∈ (BStm.goOn cs BStm.init).1, r ≠ .stop .ub) ∧
      (BStm.goOn cs BStm.init).2.size ≤ 64 :=
  have h := goOn_held cs (s := BStm.init) ⟨by decide, by decide⟩
  ⟨h.1, h.2.2⟩

/-- Sixty-five states: the last one is refused. -/
example : (BStm.goOn ((List.range 65).map fun i : Nat => .state i) BStm.init).1 =
    List.replicate 64 (.ok ()) ++ [.stop (.throw .DimOutOfRange)] := by
  decide +kernel

/-- C115: a state is read as it was described, and the number of a state behind
the last one but one is refused. -/
theorem C115_get {cs : List BCall} {bs : List (Int × List BCall)} {s : BStm}
    (hc : cs = layout bs) (hb : Blocks 0 bs) (h : BStm.run cs BStm.init = (.ok (), s)) :
    (∀ (i : Nat) (b : Int × List BCall), bs[i]? = some b →
      BStm.get i s = (.ok (elemOf i b.2), s)) ∧
    (∀ idx : Int, (bs.length : Int) < idx % 2 ^ 32 →
      BStm.get idx s = (.stop (.throw .InvalidState), s)) := by
  subst hc
  have hl : bs.length ≤ 64 := by
    have := (layout_run s bs hb.noState [] 64 rfl).1 h
    exact this.2.1
  have hs' := (run_iff (layout bs) _).2 ⟨bs, rfl, hb, hl, rfl⟩
  rw [h] at hs'
  obtain rfl : s = _ := (Prod.mk.inj hs').2
  constructor
  · intro i b hi
    have hlt : i < bs.length := by
      rcases List.getElem?_eq_some_iff.1 hi with ⟨hlt, _⟩; exact hlt
    have hm : (i : Int) % 2 ^ 32 = i := by omega
    unfold BStm.get
    rw [if_neg (by rw [hm]; show ¬ ((bs.length : Nat) : Int) < _; omega), hm]
    have he := elems_get bs 0 i b hi
    rw [Nat.zero_add] at he
    simp only [Int.toNat_natCast]
    rw [List.getElem?_append_left (by rw [elems_length]; exact hlt), he]
  · intro idx hx
    unfold BStm.get
    rw [if_pos hx]

example : ∃ s, BStm.run (layout smallMachine) BStm.init = (.ok (), s) ∧
    BStm.get 3 s = (.stop (.throw .InvalidState), s) ∧ BStm.get (-1) s = (.stop (.throw .InvalidState), s) := by
  refine ⟨_, (run_iff _ _).2 ⟨_, rfl, smallMachine_blocks, by decide, rfl⟩, ?_, ?_⟩ <;>
    decide +kernel

/-- Sixty-four states, the first one with a transition to state 64. -/
def fullMachine : List BCall :=
  .state 0 :: .tr 6 [] 64 :: (List.range 63).map fun i : Nat => .state (i + 1)

/-- C115: the claim that a successfully built table never leads outside of its
array is false. The check of the targets and the one in `get` are off by one: a
machine with 64 states may have a transition to state 64, and `get(64)` returns a
pointer behind the array. -/
theorem C115_bounds_false :
    ¬ ∀ (cs : List BCall) (s : BStm), BStm.run cs BStm.init = (.ok (), s) →
      ∀ (i : Nat) (e : RawElem), i < s.size → BStm.get i s = (.ok e, s) →
        ∀ t ∈ e.next, t ≠ -1 → (BStm.get t s).1 ≠ .stop .ub := by
  intro h
  have h1 : (BStm.run fullMachine BStm.init).1 = .ok () := by decide +kernel
  have h2 := h fullMachine (BStm.run fullMachine BStm.init).2 (by rw [← h1]) 0
    { nofnext := 1, next := (List.replicate 18 (-1)).set 6 64 }
    (by decide +kernel) (by decide +kernel) 64 (by decide +kernel) (by decide)
  exact h2 (by decide +kernel)

/-- C115: also a number that is not a state is accepted: the one behind the last
state gives a blank element, if there is one left. -/
theorem C115_get_false :
    ¬ ∀ (cs : List BCall) (s : BStm), BStm.run cs BStm.init = (.ok (), s) →
      ∀ (i : Nat), s.size ≤ i → i < 2 ^ 31 → (BStm.get i s).1 = .stop (.throw .InvalidState) := by
  intro h
  have h2 := h (layout smallMachine) _
    ((run_iff _ _).2 ⟨_, rfl, smallMachine_blocks, by decide, rfl⟩) 2 (by decide) (by decide)
  revert h2
  decide +kernel

/-- C115, with what is missing in the code: if the description has only targets
that are states of it, then a transition or a fallback leads from a state to a
state of the description. Missing: the builder does not check this. -/
theorem C115_bounds_partial {cs : List BCall} {bs : List (Int × List BCall)} {s : BStm}
    (hc : cs = layout bs) (hb : Blocks 0 bs) (h : BStm.run cs BStm.init = (.ok (), s))
    (ht : ∀ (i : Nat) (b : Int × List BCall), bs[i]? = some b → ∀ t, Gives i b.2 t → t < bs.length)
    {i : Nat} {b : Int × List BCall} (hi : bs[i]? = some b) {e : RawElem}
    (he : (BStm.get i s).1 = .ok e) {t : Int} (hm : t ∈ e.next ∨ t = e.fallback) (h1 : t ≠ -1) :
    ∃ (j : Nat) (b' : Int × List BCall), t = j ∧ bs[j]? = some b' ∧
      BStm.get t s = (.ok (elemOf j b'.2), s) := by
  have hg := (C115_get hc hb h).1
  rw [hg i b hi] at he
  cases he
  have hfine := blocks_get hb hi
  rw [Nat.zero_add] at hfine
  have hgv : Gives i b.2 t := by
    rcases hm with hm | hm
    · exact next_gives hm h1
    · exact fallback_gives hm.symm h1
  have h0 : 0 ≤ t := gives_pos hfine hgv
  have h2 := ht i b hi t hgv
  obtain ⟨j, rfl⟩ : ∃ j : Nat, t = j := ⟨t.toNat, by omega⟩
  have hj : j < bs.length := by omega
  exact ⟨j, bs[j], rfl, List.getElem?_eq_getElem hj, hg j _ (List.getElem?_eq_getElem hj)⟩

/-- The targets of the small machine are its states. -/
example (i : Nat) (b : Int × List BCall) (h : smallMachine[i]? = some b) (t : Int)
    (ht : Gives i b.2 t) : t < smallMachine.length := by
  show t < 2
  match i, h with
  | 0, h =>
    cases h
    simp [Gives, pairs, others, fallbacks] at ht
    omega
  | 1, h =>
    cases h
    simp [Gives, pairs, others, fallbacks] at ht
    omega
  | i + 2, h => simp [smallMachine] at h

/-- C115: the calls of the constructor of the XML scanner are a description, and
each of its states is read with the element that the scanner of the other
properties has. -/
theorem C115_scanner : ∃ s, BStm.run (statemachineDef.map SDef.call) BStm.init = (.ok (), s) ∧
    s.size = 48 ∧ ∀ st : STMState, BStm.get st.toNat s = (.ok (stm st).raw, s) := by
  have h1 : (BStm.run (statemachineDef.map SDef.call) BStm.init).1 = .ok () := by decide +kernel
  refine ⟨(BStm.run (statemachineDef.map SDef.call) BStm.init).2, by rw [← h1], by decide +kernel, ?_⟩
  have h2 : ∀ st ∈ STMState.all,
      (BStm.get st.toNat (BStm.run (statemachineDef.map SDef.call) BStm.init).2).1 =
        .ok (stm st).raw := by decide +kernel
  intro st
  have h3 := h2 st (by cases st <;> decide)
  generalize (BStm.run (statemachineDef.map SDef.call) BStm.init).2 = s at h3
  have h4 : (BStm.get st.toNat s).2 = s := by
    unfold BStm.get
    split
    · rfl
    · split <;> rfl
  rw [← h3]
  exact Prod.ext rfl h4

end TW
