import Verif.Model.PathParse
import Verif.Model.PathInspect

/-!
# No access outside of the vectors of automaton and selector
-/

namespace TW.Path

/-- The links of the states lead forward, and all indices are those of states. -/
structure Good (a : Atm) : Prop where
  link : ∀ (s : Nat) (st : State) (t : Nat), a[s]? = some st → st.link = some t → s < t ∧ t < a.length
  next : ∀ (s : Nat) (st : State) (t : Nat), a[s]? = some st → st.next = some t → t < a.length
  key : ∀ (s : Nat) (st : State), a[s]? = some st → st.key ≠ none → st.next ≠ none

theorem lt_of_get {α : Type} {l : List α} {i : Nat} {x : α} (h : l[i]? = some x) : i < l.length :=
  (List.getElem?_eq_some_iff.1 h).1

theorem get_of_lt {α : Type} {l : List α} {i : Nat} (h : i < l.length) : ∃ x, l[i]? = some x := ⟨_, List.getElem?_eq_getElem h⟩

theorem Good.nil : Good [] := ⟨fun _ _ _ h => by simp at h, fun _ _ _ h => by simp at h, fun _ _ h => by simp at h⟩

/-- A new state and a changed one, which may refer to the new one. -/
theorem Good.grow {a : Atm} (g : Good a) {i : Nat} {st : State} (hi : i < a.length)
    (hl : ∀ t, st.link = some t → i < t ∧ t < a.length + 1) (hn : ∀ t, st.next = some t → t < a.length + 1)
    (hk : st.key ≠ none → st.next ≠ none) : Good (a.set i st ++ [({} : State)]) := by
  have get : ∀ (s : Nat) (x : State), (a.set i st ++ [({} : State)])[s]? = some x → (x = st ∧ s = i) ∨ a[s]? = some x ∨ x = ({} : State) := by
    intro s x h
    rcases Nat.lt_or_ge s (a.set i st).length with hs | hs
    · rw [List.getElem?_append_left hs] at h
      by_cases h1 : s = i
      · subst h1
        rw [List.getElem?_set_self hi] at h
        cases h
        exact .inl ⟨rfl, rfl⟩
      · rw [List.getElem?_set_ne (fun k => h1 k.symm)] at h
        exact .inr (.inl h)
    · rw [List.getElem?_append_right hs] at h
      rw [List.getElem?_singleton] at h
      split at h
      · cases h; exact .inr (.inr rfl)
      · cases h
  have hlen : (a.set i st ++ [({} : State)]).length = a.length + 1 := by simp
  refine ⟨fun s x t h k => ?_, fun s x t h k => ?_, fun s x h k => ?_⟩
  · rw [hlen]
    rcases get s x h with ⟨rfl, rfl⟩ | h | rfl
    · exact hl t k
    · have := g.link s x t h k
      omega
    · cases k
  · rw [hlen]
    rcases get s x h with ⟨rfl, rfl⟩ | h | rfl
    · exact hn t k
    · have := g.next s x t h k
      omega
    · cases k
  · rcases get s x h with ⟨rfl, rfl⟩ | h | rfl
    · exact hk k
    · exact g.key s x h k
    · exact (k rfl).elim

theorem Good.push {a : Atm} (g : Good a) : Good (a ++ [({} : State)]) := by
  cases a with
  | nil =>
    refine ⟨fun s x t h k => ?_, fun s x t h k => ?_, fun s x h k => ?_⟩
    all_goals
      rw [List.nil_append, List.getElem?_singleton] at h
      split at h
      · cases h
        first | cases k | exact (k rfl).elim
      · cases h
  | cons x a =>
    have := g.grow (i := 0) (st := x) (by simp) (fun t k => by
      have := g.link 0 x t rfl k
      omega) (fun t k => by
      have := g.next 0 x t rfl k
      omega) (g.key 0 x rfl)
    simpa using this

theorem Good.set {a : Atm} (g : Good a) {i : Nat} {st : State} (hi : i < a.length)
    (hl : ∀ t, st.link = some t → i < t ∧ t < a.length) (hn : ∀ t, st.next = some t → t < a.length)
    (hk : st.key ≠ none → st.next ≠ none) : Good (a.set i st) := by
  have get : ∀ (s : Nat) (x : State), (a.set i st)[s]? = some x → (x = st ∧ s = i) ∨ a[s]? = some x := by
    intro s x h
    by_cases h1 : s = i
    · subst h1
      rw [List.getElem?_set_self hi] at h
      cases h
      exact .inl ⟨rfl, rfl⟩
    · rw [List.getElem?_set_ne (fun k => h1 k.symm)] at h
      exact .inr h
  refine ⟨fun s x t h k => ?_, fun s x t h k => ?_, fun s x h k => ?_⟩
  · rw [List.length_set]
    rcases get s x h with ⟨rfl, rfl⟩ | h
    · exact hl t k
    · exact g.link s x t h k
  · rw [List.length_set]
    rcases get s x h with ⟨rfl, rfl⟩ | h
    · exact hn t k
    · exact g.next s x t h k
  · rcases get s x h with ⟨rfl, rfl⟩ | h
    · exact hk k
    · exact g.key s x h k

/-! ## Building -/

theorem stateAt_ok {a : Atm} {i : Nat} {st : State} (h : a[i]? = some st) : Atm.stateAt i a = (.ok st, a) := by
  unfold Atm.stateAt
  rw [h]

theorem change_ok {a : Atm} {i : Nat} {st : State} {g : State → State} (h : a[i]? = some st) : Atm.change i g a = (.ok (), a.set i (g st)) := by
  unfold Atm.change
  rw [h]

theorem seekStep_good {a : Atm} (g : Good a) (mask : Mask) (key : List Byte) (follow : Bool) : ∀ (n i : Nat), i < a.length → a.length - i < n →
    ∃ r l, Atm.seekStep mask key follow n i a = (.ok (r, l), a) ∧ (∀ j, r = some j → j < a.length) ∧ l < a.length := by
  intro n
  induction n with
  | zero => intro i _ h; omega
  | succ n ih =>
    intro i hi hn
    obtain ⟨st, hst⟩ := get_of_lt hi
    unfold Atm.seekStep
    rw [M.bind_ok (stateAt_ok hst)]
    by_cases hc : st.key = some key ∧ st.core.follow = follow ∧ mask = st.core.mask
    · rw [if_pos hc]
      cases hx : st.next with
      | none => exact (g.key i st hst (by rw [hc.1]; simp) hx).elim
      | some j =>
        refine ⟨some j, i, rfl, fun k hk => ?_, hi⟩
        cases hk
        exact g.next i st _ hst hx
    · rw [if_neg hc]
      cases hl : st.link with
      | none => exact ⟨none, i, rfl, (fun j hj => nomatch hj), hi⟩
      | some l =>
        have := g.link i st l hst hl
        exact ih l this.2 (by omega)

theorem lastLink_good {a : Atm} (g : Good a) : ∀ (n i : Nat), i < a.length → a.length - i < n → ∃ l, Atm.lastLink n i a = (.ok l, a) ∧ l < a.length := by
  intro n
  induction n with
  | zero => intro i _ h; omega
  | succ n ih =>
    intro i hi hn
    obtain ⟨st, hst⟩ := get_of_lt hi
    unfold Atm.lastLink
    rw [M.bind_ok (stateAt_ok hst)]
    cases hl : st.link with
    | none => exact ⟨i, rfl, hi⟩
    | some l =>
      have := g.link i st l hst hl
      exact ih l this.2 (by omega)

theorem freeState_good {a : Atm} (g : Good a) {i : Nat} (hi : i < a.length) :
    ∃ j a', Atm.freeState i a = (.ok j, a') ∧ Good a' ∧ j < a'.length ∧ a.length ≤ a'.length := by
  obtain ⟨st, hst⟩ := get_of_lt hi
  unfold Atm.freeState
  rw [M.bind_ok (stateAt_ok hst)]
  by_cases hc : (!st.isempty) = true
  · rw [if_pos hc, M.bind_ok (M.get_run _)]
    obtain ⟨l, h1, h2⟩ := lastLink_good g (a.length + 1) i hi (by omega)
    obtain ⟨sl, h3⟩ := get_of_lt h2
    rw [M.bind_ok h1, M.bind_ok (change_ok h3)]
    refine ⟨a.length, a.set l { sl with link := some a.length } ++ [({} : State)], rfl, ?_, by simp, by simp⟩
    refine g.grow h2 (fun t k => ?_) (fun t k => ?_) (g.key l sl h3)
    · cases k
      omega
    · have := g.next l sl t h3 k
      omega
  · rw [if_neg hc]
    exact ⟨i, a, rfl, g, hi, Nat.le_refl _⟩

/-- The index of a path element is the one of a state, or the root. -/
def Valid (a : Atm) (i : Nat) : Prop := i < a.length ∨ i = 0

theorem defineNext_inner {a : Atm} (g : Good a) {j : Nat} (hj : j < a.length) (op : Op) (key : Option (List Byte)) (follow : Bool) :
    ∃ k a', (do
      let a ← M.get
      let (found, last) ← Atm.seekStep (({} : Mask).seekop op) (key.getD []) follow (a.length + 1) j
      match found with
      | some j => pure j
      | none => do
        let i ← Atm.freeState last
        Atm.push {}
        let a ← M.get
        Atm.change i fun s => s.defineNext op key (a.length - 1) follow
        pure (a.length - 1) : M Atm Nat) a = (.ok k, a') ∧ Good a' ∧ k < a'.length ∧ a.length ≤ a'.length := by
  rw [M.bind_ok (M.get_run _)]
  obtain ⟨r, l, h5, h6, h7⟩ := seekStep_good g (({} : Mask).seekop op) (key.getD []) follow (a.length + 1) j hj (by omega)
  rw [M.bind_ok h5]
  cases r with
  | some k => exact ⟨k, a, rfl, g, h6 k rfl, Nat.le_refl _⟩
  | none =>
    obtain ⟨i', a2, k1, k2, k3, k4⟩ := freeState_good g h7
    simp only []
    rw [M.bind_ok k1, show Atm.push {} = M.modify (fun a => a ++ [({} : State)]) from rfl, M.bind_ok (M.modify_run _ _), M.bind_ok (M.get_run _)]
    obtain ⟨st, k5⟩ := get_of_lt k3
    have k6 : (a2 ++ [({} : State)])[i']? = some st := by rw [List.getElem?_append_left k3, k5]
    rw [M.bind_ok (change_ok k6)]
    refine ⟨_, _, rfl, ?_, by simp, by simp; omega⟩
    refine k2.push.set (by simp; omega) (fun t k => ?_) (fun t k => ?_) (fun _ k => nomatch k)
    · exact k2.push.link i' st t k6 k
    · cases k
      simp

theorem defineNext_good {a : Atm} (g : Good a) {i : Nat} (hv : Valid a i) (op : Op) (key : Option (List Byte)) (follow : Bool) :
    ∃ j a', Atm.defineNext i op key follow a = (.ok j, a') ∧ Good a' ∧ j < a'.length ∧ a.length ≤ a'.length := by
  unfold Atm.defineNext
  rw [M.bind_ok (M.get_run _)]
  by_cases h0 : a.length = 0
  · rw [if_pos h0, show Atm.push {} = M.modify (fun a => a ++ [({} : State)]) from rfl, M.bind_ok (M.modify_run _ _)]
    obtain ⟨k, a', h1, h2, h3, h4⟩ := defineNext_inner g.push (j := 0) (by simp) op key follow
    exact ⟨k, a', h1, h2, h3, by rw [List.length_append] at h4; omega⟩
  · rw [if_neg h0]
    exact defineNext_inner g (by rcases hv with h | rfl <;> omega) op key follow

theorem defineOutput_inner {a : Atm} (g : Good a) {j : Nat} (hj : j < a.length) (mask : Mask) (typeidx : Int) (follow : Bool) (start stop : Int) :
    ∃ k a', (do
      let a ← M.get
      if a.length ≤ j then M.stop (.throw .Unknown)
      else do
        let i ← Atm.freeState j
        Atm.change i fun s => s.defineOutput mask typeidx follow start stop
        pure i : M Atm Nat) a = (.ok k, a') ∧ Good a' ∧ k < a'.length ∧ a.length ≤ a'.length := by
  rw [M.bind_ok (M.get_run _), if_neg (by omega)]
  obtain ⟨i', a2, k1, k2, k3, k4⟩ := freeState_good g hj
  obtain ⟨st, k5⟩ := get_of_lt k3
  rw [M.bind_ok k1, M.bind_ok (change_ok k5)]
  refine ⟨i', _, rfl, ?_, by simpa using k3, by simp; omega⟩
  exact k2.set k3 (fun t k => k2.link i' st t k5 k) (fun t k => k2.next i' st t k5 k) (k2.key i' st k5)

theorem defineOutput_good {a : Atm} (g : Good a) {i : Nat} (hv : Valid a i) (mask : Mask) (typeidx : Int) (follow : Bool) (start stop : Int) :
    ∃ j a', Atm.defineOutput i mask typeidx follow start stop a = (.ok j, a') ∧ Good a' ∧ j < a'.length ∧ a.length ≤ a'.length := by
  unfold Atm.defineOutput
  rw [M.bind_ok (M.get_run _)]
  by_cases h0 : a.length = 0
  · rw [if_pos h0, show Atm.push {} = M.modify (fun a => a ++ [({} : State)]) from rfl, M.bind_ok (M.modify_run _ _)]
    obtain ⟨k, a', h1, h2, h3, h4⟩ := defineOutput_inner g.push (j := 0) (by simp) mask typeidx follow start stop
    exact ⟨k, a', h1, h2, h3, by rw [List.length_append] at h4; omega⟩
  · rw [if_neg h0]
    exact defineOutput_inner g (by rcases hv with h | rfl <;> omega) mask typeidx follow start stop

theorem select_good {a : Atm} (g : Good a) {p : PElem} (hv : Valid a p.stateidx) (op : Op) (key : Option (List Byte)) :
    ∃ q a', PElem.select op key p a = (.ok q, a') ∧ Good a' ∧ Valid a' q.stateidx ∧ a.length ≤ a'.length := by
  obtain ⟨j, a', h1, h2, h3, h4⟩ := defineNext_good g hv op key p.follow
  unfold PElem.select
  rw [M.bind_ok h1]
  exact ⟨_, a', rfl, h2, .inl h3, h4⟩

/-- The names given to a call have keys. -/
def Named (e : Enc) (n : Nat) (name : Option (List Byte)) : Prop := ∀ nm, name = some nm → ∃ k, nameKey e n nm = .ok k

theorem doSelect_good {e : Enc} {n : Nat} {a : Atm} (g : Good a) {p : PElem} (hv : Valid a p.stateidx) (op : Op) {name : Option (List Byte)}
    (hn : Named e n name) : ∃ q a', PElem.doSelect e n op name p a = (.ok q, a') ∧ Good a' ∧ Valid a' q.stateidx ∧ a.length ≤ a'.length := by
  cases name with
  | none => exact select_good g hv op none
  | some nm =>
    obtain ⟨k, hk⟩ := hn nm rfl
    simp only [PElem.doSelect, hk]
    exact select_good g hv op (some k)

def CallNamed (e : Enc) (n : Nat) : PElem.Call → Prop
  | .tag name => Named e n name
  | .attribute name => Named e n name
  | .ifAttribute name value => Named e n name ∧ Named e n value
  | _ => True

theorem doRange_stateidx (p : PElem) (s t : Int) : (p.doRange s t).stateidx = p.stateidx := by
  unfold PElem.doRange
  repeat (split <;> try rfl)

/-- A call on a path element does what it has to, and gives another path element. -/
theorem call_good {e : Enc} {n : Nat} {a : Atm} (g : Good a) {p : PElem} (hv : Valid a p.stateidx) {c : PElem.Call} (hc : CallNamed e n c) :
    ∃ q a', PElem.call e n p c a = (.ok q, a') ∧ Good a' ∧ Valid a' q.stateidx ∧ a.length ≤ a'.length := by
  have rng : ∀ s t, ∃ q a', (pure (p.doRange s t) : M Atm PElem) a = (.ok q, a') ∧ Good a' ∧ Valid a' q.stateidx ∧ a.length ≤ a'.length :=
    fun s t => ⟨_, a, rfl, g, by rw [doRange_stateidx]; exact hv, Nat.le_refl _⟩
  cases c with
  | follow => exact ⟨_, a, rfl, g, hv, Nat.le_refl _⟩
  | tag name => exact doSelect_good g hv _ hc
  | closeTag => exact doSelect_good (e := e) (n := n) (name := none) g hv .CloseTag (fun _ h => nomatch h)
  | «attribute» name =>
    obtain ⟨q, a', h1, h2, h3, h4⟩ := doSelect_good g hv .Attribute hc
    simp only [PElem.call]
    rw [M.bind_ok h1]
    exact ⟨_, a', rfl, h2, h3, h4⟩
  | ifAttribute name value =>
    obtain ⟨q, a', h1, h2, h3, h4⟩ := doSelect_good g hv .Attribute hc.1
    obtain ⟨q', a'', k1, k2, k3, k4⟩ := doSelect_good h2 h3 .ThisAttributeValue hc.2
    simp only [PElem.call]
    rw [M.bind_ok h1]
    exact ⟨q', a'', k1, k2, k3, by omega⟩
  | content => exact ⟨_, a, rfl, g, hv, Nat.le_refl _⟩
  | to i => exact rng _ _
  | from' i => exact rng _ _
  | range i j => exact rng _ _
  | index i => exact rng _ _
  | assign ty =>
    obtain ⟨j, a', h1, h2, h3, h4⟩ := defineOutput_good g hv p.print ty p.follow p.start p.stop
    show ∃ q a', PElem.push ty p a = (.ok q, a') ∧ _
    unfold PElem.push
    rw [M.bind_ok h1]
    exact ⟨_, a', rfl, h2, .inl h3, h4⟩

/-- Whatever a call does, the automaton is a good one. -/
theorem call_keeps {e : Enc} {n : Nat} {a a' : Atm} (g : Good a) {p : PElem} (hv : Valid a p.stateidx) {c : PElem.Call} {r : Res PElem}
    (h : PElem.call e n p c a = (r, a')) : Good a' ∧ a.length ≤ a'.length ∧ ∀ q, r = .ok q → Valid a' q.stateidx := by
  by_cases hc : CallNamed e n c
  · obtain ⟨q, a2, h1, h2, h3, h4⟩ := call_good g hv hc
    rw [h1] at h
    cases h
    exact ⟨h2, h4, fun q hq => by cases hq; exact h3⟩
  · have sel : ∀ (op : Op) (name : Option (List Byte)) (p : PElem) (a : Atm), ¬ Named e n name → ∃ er, PElem.doSelect e n op name p a = (.stop er, a) := by
      intro op name p a hn
      cases name with
      | none => exact (hn fun _ h => nomatch h).elim
      | some nm =>
        simp only [PElem.doSelect]
        cases hk : nameKey e n nm with
        | ok k => exact (hn fun x hx => by cases hx; exact ⟨k, hk⟩).elim
        | stop er => exact ⟨er, rfl⟩
    cases c with
    | tag name =>
      obtain ⟨er, h1⟩ := sel .OpenTag name p a hc
      change PElem.doSelect e n .OpenTag name p a = (r, a') at h
      rw [h1] at h
      cases h
      exact ⟨g, Nat.le_refl _, fun q hq => nomatch hq⟩
    | «attribute» name =>
      obtain ⟨er, h1⟩ := sel .Attribute name p a hc
      simp only [PElem.call] at h
      rw [M.bind_stop h1] at h
      cases h
      exact ⟨g, Nat.le_refl _, fun q hq => nomatch hq⟩
    | ifAttribute name value =>
      simp only [PElem.call] at h
      by_cases hn : Named e n name
      · obtain ⟨q, a2, h1, h2, h3, h4⟩ := doSelect_good g hv .Attribute hn
        obtain ⟨er, k1⟩ := sel .ThisAttributeValue value q a2 (fun hx => hc ⟨hn, hx⟩)
        rw [M.bind_ok h1, k1] at h
        cases h
        exact ⟨h2, h4, fun q hq => nomatch hq⟩
      · obtain ⟨er, h1⟩ := sel .Attribute name p a hn
        rw [M.bind_stop h1] at h
        cases h
        exact ⟨g, Nat.le_refl _, fun q hq => nomatch hq⟩
    | _ => exact (hc trivial).elim

/-- The names in a call. -/
def PElem.Call.names : PElem.Call → List (List Byte)
  | .tag name => name.toList
  | .attribute name => name.toList
  | .ifAttribute name value => name.toList ++ value.toList
  | _ => []

/-- A call does not end well only because of a name. -/
theorem call_fails {e : Enc} {n : Nat} {a a' : Atm} (g : Good a) {p : PElem} (hv : Valid a p.stateidx) {c : PElem.Call} {er : Stop}
    (h : PElem.call e n p c a = (.stop er, a')) : ∃ nm ∈ c.names, nameKey e n nm = .stop er := by
  have sel : ∀ (op : Op) (name : Option (List Byte)) (p : PElem) (a a' : Atm), Good a → Valid a p.stateidx →
      PElem.doSelect e n op name p a = (.stop er, a') → ∃ nm ∈ name.toList, nameKey e n nm = .stop er := by
    intro op name p a a' g hv h
    cases name with
    | none =>
      obtain ⟨q, a2, h1, _⟩ := doSelect_good (e := e) (n := n) (name := none) g hv op (fun _ h => nomatch h)
      rw [h1] at h
      cases h
    | some nm =>
      cases hk : nameKey e n nm with
      | ok k =>
        obtain ⟨q, a2, h1, _⟩ := doSelect_good (e := e) (n := n) (name := some nm) g hv op (fun x hx => by cases hx; exact ⟨k, hk⟩)
        rw [h1] at h
        cases h
      | stop er' =>
        simp only [PElem.doSelect, hk] at h
        cases h
        exact ⟨nm, by simp, hk⟩
  have fine : CallNamed e n c → False := by
    intro hc
    obtain ⟨q, a2, h1, _⟩ := call_good g hv hc
    rw [h1] at h
    cases h
  cases c with
  | tag name => exact sel .OpenTag name p a a' g hv h
  | «attribute» name =>
    simp only [PElem.call] at h
    rcases hx : PElem.doSelect e n .Attribute name p a with ⟨r, a1⟩
    cases r with
    | ok q =>
      rw [M.bind_ok hx] at h
      cases h
    | stop er' =>
      rw [M.bind_stop hx] at h
      cases h
      exact sel .Attribute name p a a' g hv hx
  | ifAttribute name value =>
    simp only [PElem.call] at h
    rcases hx : PElem.doSelect e n .Attribute name p a with ⟨r, a1⟩
    cases r with
    | ok q =>
      have hn : Named e n name := by
        intro nm hnm
        subst hnm
        cases hk : nameKey e n nm with
        | ok k => exact ⟨k, rfl⟩
        | stop er' =>
          simp only [PElem.doSelect, hk] at hx
          cases hx
      obtain ⟨q', a2, h1, h2, h3, h4⟩ := doSelect_good g hv .Attribute hn
      rw [h1] at hx
      cases hx
      rw [M.bind_ok h1] at h
      obtain ⟨nm, k1, k2⟩ := sel .ThisAttributeValue value q _ a' h2 h3 h
      exact ⟨nm, List.mem_append_right _ k1, k2⟩
    | stop er' =>
      rw [M.bind_stop hx] at h
      cases h
      obtain ⟨nm, k1, k2⟩ := sel .Attribute name p a a' g hv hx
      exact ⟨nm, List.mem_append_left _ k1, k2⟩
  | _ => exact (fine trivial).elim

/-! ## Texts -/

/-- The automaton stays a good one, and the path elements are those of it. -/
def KeepsAll (x : M Atm (List PElem)) : Prop := ∀ a r a', Good a → x a = (r, a') →
  Good a' ∧ a.length ≤ a'.length ∧ ∀ qs, r = .ok qs → ∀ q ∈ qs, Valid a' q.stateidx

theorem Valid.mono {a a' : Atm} (h : a.length ≤ a'.length) {i : Nat} (hv : Valid a i) : Valid a' i := by
  rcases hv with h | h
  · exact .inl (by omega)
  · exact .inr h

theorem forEach_keeps {e : Enc} {n : Nat} {c : PElem.Call} : ∀ {ps : List PElem} {a a' : Atm} {r : Res (List PElem)}, Good a → (∀ p ∈ ps, Valid a p.stateidx) →
    forEach e n c ps a = (r, a') → Good a' ∧ a.length ≤ a'.length ∧ ∀ qs, r = .ok qs → ∀ q ∈ qs, Valid a' q.stateidx
  | [], a, a', r, g, _, h => by
    cases h
    exact ⟨g, Nat.le_refl _, fun qs hq q hx => by cases hq; cases hx⟩
  | p :: ps, a, a', r, g, hv, h => by
    unfold forEach at h
    rcases hx : PElem.call e n p c a with ⟨r1, a1⟩
    obtain ⟨h1, h2, h3⟩ := call_keeps g (hv p (List.mem_cons_self ..)) hx
    cases r1 with
    | stop er =>
      rw [M.bind_stop hx] at h
      cases h
      exact ⟨h1, h2, fun qs hq => nomatch hq⟩
    | ok q =>
      rw [M.bind_ok hx] at h
      rcases hy : forEach e n c ps a1 with ⟨r2, a2⟩
      obtain ⟨k1, k2, k3⟩ := forEach_keeps h1 (fun p hp => (hv p (List.mem_cons_of_mem _ hp)).mono h2) hy
      cases r2 with
      | stop er =>
        rw [M.bind_stop hy] at h
        cases h
        exact ⟨k1, by omega, fun qs hq => nomatch hq⟩
      | ok qs =>
        rw [M.bind_ok hy] at h
        cases h
        refine ⟨k1, by omega, fun qs' hq x hx => ?_⟩
        cases hq
        rcases List.mem_cons.1 hx with rfl | hx
        · exact (h3 _ rfl).mono k2
        · exact k3 qs rfl x hx

theorem forAlt_keeps {e : Enc} {n : Nat} {mk : Option (List Byte) → PElem.Call} {ps : List PElem} : ∀ {alt : List (List Byte)} {a a' : Atm} {r : Res (List PElem)},
    Good a → (∀ p ∈ ps, Valid a p.stateidx) →
    forAlt e n mk ps alt a = (r, a') → Good a' ∧ a.length ≤ a'.length ∧ ∀ qs, r = .ok qs → ∀ q ∈ qs, Valid a' q.stateidx
  | [], a, a', r, g, _, h => by
    cases h
    exact ⟨g, Nat.le_refl _, fun qs hq q hx => by cases hq; cases hx⟩
  | x :: alt, a, a', r, g, hv, h => by
    unfold forAlt at h
    rcases hx : forEach e n (mk (some x)) ps a with ⟨r1, a1⟩
    obtain ⟨h1, h2, h3⟩ := forEach_keeps g hv hx
    cases r1 with
    | stop er =>
      rw [M.bind_stop hx] at h
      cases h
      exact ⟨h1, h2, fun qs hq => nomatch hq⟩
    | ok q =>
      rw [M.bind_ok hx] at h
      rcases hy : forAlt e n mk ps alt a1 with ⟨r2, a2⟩
      obtain ⟨k1, k2, k3⟩ := forAlt_keeps h1 (fun p hp => (hv p hp).mono h2) hy
      cases r2 with
      | stop er =>
        rw [M.bind_stop hy] at h
        cases h
        exact ⟨k1, by omega, fun qs hq => nomatch hq⟩
      | ok qs =>
        rw [M.bind_ok hy] at h
        cases h
        refine ⟨k1, by omega, fun qs' hq x hx => ?_⟩
        cases hq
        rcases List.mem_append.1 hx with hx | hx
        · exact (h3 _ rfl x hx).mono k2
        · exact k3 qs rfl x hx

theorem act_keeps {e : Enc} {n : Nat} {act : Act} {ps : List PElem} {a a' : Atm} {r : Res (List PElem)} (g : Good a) (hv : ∀ p ∈ ps, Valid a p.stateidx)
    (h : act.run e n ps a = (r, a')) : Good a' ∧ a.length ≤ a'.length ∧ ∀ qs, r = .ok qs → ∀ q ∈ qs, Valid a' q.stateidx := by
  cases act with
  | none =>
    cases h
    exact ⟨g, Nat.le_refl _, fun qs hq => by cases hq; exact hv⟩
  | call c => exact forEach_keeps g hv h
  | tags alt => exact forAlt_keeps g hv h
  | attributes alt => exact forAlt_keeps g hv h

theorem onSrc_atm {α : Type} {x : M Parse.Src α} {p p' : Parser} {r : Res α} (h : Parser.onSrc x p = (r, p')) : p'.atm = p.atm := by
  unfold Parser.onSrc M.zoom at h
  cases h
  rfl

theorem onAtm_run {α : Type} {x : M Atm α} {p p' : Parser} {r : Res α} (h : Parser.onAtm x p = (r, p')) : x p.atm = (r, p'.atm) := by
  unfold Parser.onAtm M.zoom at h
  cases h
  rfl

theorem loop_keeps {e : Enc} {n : Nat} {type : Int} : ∀ {m : Nat} {st : PState} {ps : List PElem} {p p' : Parser} {r : Res Nat}, Good p.atm →
    (∀ q ∈ ps, Valid p.atm q.stateidx) → Parser.loop e n type m st ps p = (r, p') → Good p'.atm ∧ p.atm.length ≤ p'.atm.length
  | 0, _, _, p, p', r, g, _, h => by
    cases h
    exact ⟨g, Nat.le_refl _⟩
  | m + 1, st, ps, p, p', r, g, hv, h => by
    unfold Parser.loop at h
    rcases h1 : Parser.onSrc TextScanner.chr p with ⟨r1, p1⟩
    have e1 := onSrc_atm h1
    cases r1 with
    | stop er =>
      rw [M.bind_stop h1] at h
      cases h
      rw [e1]
      exact ⟨g, Nat.le_refl _⟩
    | ok c =>
      rw [M.bind_ok h1] at h
      rw [← e1] at g hv ⊢
      by_cases hc : c = 0
      · rw [if_pos hc] at h
        rcases h2 : Parser.onAtm (forEach e n (.assign type) ps) p1 with ⟨r2, p2⟩
        obtain ⟨k1, k2, k3⟩ := forEach_keeps g hv (onAtm_run h2)
        cases r2 with
        | stop er =>
          rw [M.bind_stop h2] at h
          cases h
          exact ⟨k1, k2⟩
        | ok qs =>
          rw [M.bind_ok h2] at h
          cases h
          exact ⟨k1, k2⟩
      · rw [if_neg hc] at h
        rcases h2 : Parser.onSrc (Parse.turn e n st c) p1 with ⟨r2, p2⟩
        have e2 := onSrc_atm h2
        cases r2 with
        | stop er =>
          rw [M.bind_stop h2] at h
          cases h
          rw [e2]
          exact ⟨g, Nat.le_refl _⟩
        | ok o =>
          rw [M.bind_ok h2] at h
          rw [← e2] at g hv ⊢
          cases o with
          | none =>
            cases h
            exact ⟨g, Nat.le_refl _⟩
          | some x =>
            obtain ⟨act, st'⟩ := x
            simp only [] at h
            rcases h3 : Parser.onAtm (act.run e n ps) p2 with ⟨r3, p3⟩
            obtain ⟨k1, k2, k3⟩ := act_keeps g hv (onAtm_run h3)
            cases r3 with
            | stop er =>
              rw [M.bind_stop h3] at h
              cases h
              exact ⟨k1, k2⟩
            | ok qs =>
              rw [M.bind_ok h3] at h
              rcases h4 : Parser.onSrc (Parse.skipSpaces n) p3 with ⟨r4, p4⟩
              have e4 := onSrc_atm h4
              cases r4 with
              | stop er =>
                rw [M.bind_stop h4] at h
                cases h
                rw [e4]
                exact ⟨k1, k2⟩
              | ok u =>
                rw [M.bind_ok h4] at h
                obtain ⟨j1, j2⟩ := loop_keeps (by rw [e4]; exact k1) (by rw [e4]; exact k3 qs rfl) h
                rw [e4] at j2
                exact ⟨j1, by omega⟩

theorem text_keeps {se e : Enc} {n : Nat} {type : Int} {src : List Byte} {a a' : Atm} {r : Res Nat} (g : Good a)
    (h : addExpression se e n type src a = (r, a')) : Good a' ∧ a.length ≤ a'.length := by
  unfold addExpression at h
  split at h
  · cases h
    exact ⟨g, Nat.le_refl _⟩
  · rcases hx : Parser.loop e n type n .SelectStart [{}] { src := TextScanner.mk' se (CStr.mk' src), atm := a } with ⟨r1, p⟩
    rw [hx] at h
    cases h
    exact loop_keeps (p := { src := TextScanner.mk' se (CStr.mk' src), atm := a }) g (fun q hq => .inr (by rw [List.mem_singleton.1 hq])) hx

/-! ## The selector -/

/-- What the enclosing levels refer to is there. -/
def Levels : List Scope → Nat → List Nat → Prop
  | [], _, _ => True
  | sc :: stk, n, F => sc.tokenTo ≤ n ∧ sc.followidx ≤ F.length ∧ (∀ f ∈ F.take sc.followidx, f < sc.tokenTo) ∧
      Levels stk sc.tokenTo (F.take sc.followidx)

theorem Levels.mono {stk : List Scope} {n m : Nat} {F G : List Nat} (h : Levels stk n F) (hm : n ≤ m) : Levels stk m (F ++ G) := by
  cases stk with
  | nil => trivial
  | cons sc stk =>
    obtain ⟨h1, h2, h3, h4⟩ := h
    have e : (F ++ G).take sc.followidx = F.take sc.followidx := List.take_append_of_le_length h2
    refine ⟨by omega, by rw [List.length_append]; omega, ?_, ?_⟩
    · rw [e]; exact h3
    · rw [e]; exact h4

/-- What a selector refers to is there. -/
structure Sound (a : Atm) (s : Sel) : Prop where
  atm : s.atm = a
  states : ∀ t ∈ s.tokens, t.stateidx < a.length
  top : s.scope.tokenTo ≤ s.tokens.length
  fol : s.scope.followidx ≤ s.follows.length
  refs : ∀ f ∈ s.follows, f < s.tokens.length
  levels : Levels s.scopestk s.tokens.length s.follows

/-- What the walk through the tokens leaves as it is. -/
structure Still (s t : Sel) : Prop where
  stk : t.scopestk = s.scopestk
  type : t.type = s.type
  key : t.key = s.key
  iter : t.iter = s.iter
  from' : t.scope.tokenFrom = s.scope.tokenFrom
  to' : t.scope.tokenTo = s.scope.tokenTo
  idx : t.scope.followidx = s.scope.followidx

theorem Still.refl (s : Sel) : Still s s := ⟨rfl, rfl, rfl, rfl, rfl, rfl, rfl⟩

theorem Still.trans {s t u : Sel} (h : Still s t) (k : Still t u) : Still s u :=
  ⟨k.stk.trans h.stk, k.type.trans h.type, k.key.trans h.key, k.iter.trans h.iter, k.from'.trans h.from', k.to'.trans h.to', k.idx.trans h.idx⟩

theorem activate_safe {a : Atm} {s : Sel} (h : Sound a s) (st : State) {i : Nat} (hi : i < a.length) :
    Sound a (Sel.activate st i s) ∧ Still s (Sel.activate st i s) := by
  have push : ∀ x ∈ s.tokens ++ [({ core := st.core, stateidx := i } : Token)], x.stateidx < a.length := by
    intro x hx
    rcases List.mem_append.1 hx with hx | hx
    · exact h.states x hx
    · cases List.mem_singleton.1 hx
      exact hi
  unfold Sel.activate
  by_cases h1 : st.core.mask.empty ∧ st.core.typeidx ≠ 0
  · simp only [if_pos h1]
    exact ⟨⟨h.atm, h.states, h.top, h.fol, h.refs, h.levels⟩, ⟨rfl, rfl, rfl, rfl, rfl, rfl, rfl⟩⟩
  · simp only [if_neg h1]
    by_cases h2 : st.core.follow = true
    · simp only [if_pos h2]
      refine ⟨⟨h.atm, push, ?_, ?_, ?_, ?_⟩, ⟨rfl, rfl, rfl, rfl, rfl, rfl, rfl⟩⟩
      · have := h.top
        simp only [List.length_append]
        omega
      · have := h.fol
        simp only [List.length_append]
        omega
      · intro f hf
        simp only [List.length_append, List.length_singleton]
        rcases List.mem_append.1 hf with hf | hf
        · have := h.refs f hf
          omega
        · cases List.mem_singleton.1 hf
          omega
      · exact h.levels.mono (by simp)
    · simp only [if_neg h2]
      refine ⟨⟨h.atm, push, ?_, h.fol, ?_, ?_⟩, ⟨rfl, rfl, rfl, rfl, rfl, rfl, rfl⟩⟩
      · have := h.top
        simp only [List.length_append]
        omega
      · intro f hf
        have := h.refs f hf
        simp only [List.length_append]
        omega
      · have := h.levels.mono (G := []) (m := (s.tokens ++ [({ core := st.core, stateidx := i } : Token)]).length) (by simp)
        rw [List.append_nil] at this
        exact this

theorem expand_safe {a : Atm} (g : Good a) : ∀ (n : Nat) (o : Option Nat) (s : Sel), Sound a s → (∀ i, o = some i → i < a.length ∧ a.length - i < n) →
    ∃ t, Sel.expand n o s = (.ok (), t) ∧ Sound a t ∧ Still s t
  | 0, none, s, h, _ => ⟨s, rfl, h, .refl s⟩
  | _ + 1, none, s, h, _ => ⟨s, rfl, h, .refl s⟩
  | 0, some i, s, h, hi => by
    have := (hi i rfl).2
    omega
  | n + 1, some i, s, h, hi => by
    obtain ⟨h1, h2⟩ := hi i rfl
    obtain ⟨st, hst⟩ := get_of_lt h1
    have hs : Sel.stateAt i s = (.ok st, s) := by
      unfold Sel.stateAt
      rw [h.atm, hst]
    unfold Sel.expand
    rw [M.bind_ok hs, M.bind_ok (M.modify_run _ _)]
    obtain ⟨k1, k2⟩ := activate_safe h st h1
    obtain ⟨t, j1, j2, j3⟩ := expand_safe g n st.link _ k1 (fun j hj => by
      have := g.link i st j hst hj
      omega)
    exact ⟨t, j1, j2, k2.trans j3⟩

theorem tokenAt_safe {s : Sel} {i : Nat} (hi : i < s.tokens.length) : ∃ t, Sel.tokenAt i s = (.ok t, s) ∧ s.tokens[i]? = some t := by
  obtain ⟨t, ht⟩ := get_of_lt hi
  refine ⟨t, ?_, ht⟩
  unfold Sel.tokenAt
  rw [ht]

theorem change_safe {a : Atm} {s : Sel} (h : Sound a s) {i : Nat} (hi : i < s.tokens.length) (f : Core → Core) :
    ∃ t, Sel.change i f s = (.ok (), t) ∧ Sound a t ∧ Still s t ∧ t.tokens.length = s.tokens.length := by
  obtain ⟨x, hx⟩ := get_of_lt hi
  refine ⟨{ s with tokens := s.tokens.set i { x with core := f x.core } }, ?_, ⟨h.atm, ?_, ?_, h.fol, ?_, ?_⟩, ⟨rfl, rfl, rfl, rfl, rfl, rfl, rfl⟩, by simp⟩
  · unfold Sel.change
    rw [hx]
  · intro t ht
    rcases List.mem_or_eq_of_mem_set ht with ht | rfl
    · exact h.states t ht
    · exact h.states x (List.mem_of_getElem? hx)
  · simpa using h.top
  · simpa using h.refs
  · simpa using h.levels

theorem produce_safe {a : Atm} (g : Good a) {s : Sel} (h : Sound a s) {i : Nat} (hi : i < s.tokens.length) {k : Nat} {st : State} (hst : a[k]? = some st) :
    ∃ t, Sel.produce i st s = (.ok (), t) ∧ Sound a t ∧ Still s t := by
  have ex : ∀ u, Sound a u → ∃ t, Sel.expand (s.atm.length + 1) st.next u = (.ok (), t) ∧ Sound a t ∧ Still u t := by
    intro u hu
    refine expand_safe g _ _ u hu (fun j hj => ?_)
    have := g.next k st j hst hj
    rw [h.atm]
    omega
  obtain ⟨x, h1, _⟩ := tokenAt_safe hi
  unfold Sel.produce
  rw [M.bind_ok (M.get_run _), M.bind_ok h1]
  by_cases c1 : x.core.cntEnd = -1
  · rw [if_pos c1]
    exact ex s h
  · rw [if_neg c1]
    by_cases c2 : 0 < x.core.cntEnd
    · rw [if_pos c2]
      obtain ⟨u, k1, k2, k3, k4⟩ := change_safe h hi Sel.count
      rw [M.bind_ok k1]
      by_cases c3 : x.core.cntStart ≤ 0
      · rw [if_pos c3]
        obtain ⟨t, j1, j2, j3⟩ := ex u k2
        exact ⟨t, j1, j2, k3.trans j3⟩
      · rw [if_neg c3]
        obtain ⟨t, j1, j2, j3, _⟩ := change_safe k2 (i := i) (by omega) (fun c => { c with cntStart := c.cntStart - 1 })
        exact ⟨t, j1, j2, k3.trans j3⟩
    · rw [if_neg c2]
      exact ⟨s, rfl, h, .refl s⟩

theorem emit_safe {a : Atm} {s : Sel} (h : Sound a s) {i : Nat} (hi : i < s.tokens.length) :
    ∃ r t, Sel.emit i s = (.ok r, t) ∧ Sound a t ∧ Still s t := by
  obtain ⟨x, h1, _⟩ := tokenAt_safe hi
  unfold Sel.emit
  rw [M.bind_ok h1]
  by_cases c0 : x.core.typeidx ≠ 0
  · rw [if_pos c0]
    by_cases c1 : x.core.cntEnd = -1
    · rw [if_pos c1]
      exact ⟨_, s, rfl, h, .refl s⟩
    · rw [if_neg c1]
      by_cases c2 : 0 < x.core.cntEnd
      · rw [if_pos c2]
        obtain ⟨u, k1, k2, k3, k4⟩ := change_safe h hi Sel.count
        rw [M.bind_ok k1]
        by_cases c3 : x.core.cntStart ≤ 0
        · rw [if_pos c3]
          exact ⟨_, u, rfl, k2, k3⟩
        · rw [if_neg c3]
          obtain ⟨t, j1, j2, j3, _⟩ := change_safe k2 (i := i) (by omega) (fun c => { c with cntStart := c.cntStart - 1 })
          rw [M.bind_ok j1]
          exact ⟨0, t, rfl, j2, k3.trans j3⟩
      · rw [if_neg c2]
        exact ⟨0, s, rfl, h, .refl s⟩
  · rw [if_neg c0]
    exact ⟨0, s, rfl, h, .refl s⟩

theorem fire_safe {a : Atm} (g : Good a) {s : Sel} (h : Sound a s) {i : Nat} (hi : i < s.scope.tokenTo) (type : ElementType) (key : List Byte) :
    ∃ r t, Sel.fire i type key s = (.ok r, t) ∧ Sound a t ∧ Still s t := by
  have hi' : i < s.tokens.length := Nat.lt_of_lt_of_le hi h.top
  obtain ⟨x, h1, h2⟩ := tokenAt_safe hi'
  unfold Sel.fire
  rw [M.bind_ok h1]
  by_cases c0 : x.core.mask.matches type = true
  · rw [if_pos c0]
    obtain ⟨st, hst⟩ := get_of_lt (h.states x (List.mem_of_getElem? h2))
    have hs : Sel.stateAt x.stateidx s = (.ok st, s) := by
      unfold Sel.stateAt
      rw [h.atm, hst]
    rw [M.bind_ok hs]
    have hf : ∃ t, Sel.follow i key st s = (.ok (), t) ∧ Sound a t ∧ Still s t := by
      unfold Sel.follow
      cases st.key with
      | none => exact produce_safe g h hi' hst
      | some k =>
        simp only []
        by_cases hk : k = key
        · rw [if_pos hk]
          exact produce_safe g h hi' hst
        · rw [if_neg hk]
          exact ⟨s, rfl, h, .refl s⟩
    obtain ⟨u, k1, k2, k3⟩ := hf
    rw [M.bind_ok k1]
    obtain ⟨r, t, j1, j2, j3⟩ := emit_safe k2 (i := i) (by
      have := k2.top
      rw [k3.to'] at this
      omega)
    exact ⟨r, t, j1, j2, k3.trans j3⟩
  · rw [if_neg c0]
    exact ⟨0, s, rfl, h, .refl s⟩

theorem match_safe {a : Atm} (g : Good a) {s : Sel} (h : Sound a s) (i : Nat) :
    ∃ r t, Sel.matchToken i s = (.ok r, t) ∧ Sound a t ∧ Still s t := by
  unfold Sel.matchToken
  rw [M.bind_ok (M.get_run _)]
  cases s.key with
  | none => exact ⟨0, s, rfl, h, .refl s⟩
  | some key =>
    simp only []
    by_cases hi : s.scope.tokenTo ≤ i
    · rw [if_pos hi]
      exact ⟨0, s, rfl, h, .refl s⟩
    · rw [if_neg hi]
      obtain ⟨r, t, h1, h2, h3⟩ := fire_safe g h (i := i) (by omega) s.type key
      rw [M.bind_ok h1]
      obtain ⟨x, k1, _⟩ := tokenAt_safe (s := t) (i := i) (by
        have := h2.top
        rw [h3.to'] at this
        omega)
      unfold Sel.giveUp
      have hg : ∃ u, (do
          let tk ← Sel.tokenAt i
          if tk.core.mask.rejects s.type then Sel.change i fun c => { c with mask := {} } else pure () : M Sel Unit) t = (.ok (), u) ∧ Sound a u ∧ Still t u := by
        rw [M.bind_ok k1]
        by_cases hr : x.core.mask.rejects s.type = true
        · rw [if_pos hr]
          obtain ⟨u, j1, j2, j3, _⟩ := change_safe h2 (i := i) (by
            have := h2.top
            rw [h3.to'] at this
            omega) (fun c => { c with mask := {} })
          exact ⟨u, j1, j2, j3⟩
        · rw [if_neg hr]
          exact ⟨t, rfl, h2, .refl t⟩
      obtain ⟨u, j1, j2, j3⟩ := hg
      rw [M.bind_ok j1]
      exact ⟨r, u, rfl, j2, h3.trans j3⟩

/-- How far the walk through the tokens has to go. -/
def togo (s : Sel) : Nat := s.scope.tokenTo + s.scope.followidx - s.iter

/-- The state is one further in the walk. -/
def Less (t s : Sel) : Prop := t.scopestk.length < s.scopestk.length ∨
  t.scopestk.length = s.scopestk.length ∧ (togo t < togo s ∨ togo t = togo s ∧ t.triggers.length < s.triggers.length)

theorem less_wf : WellFounded Less := by
  have : Subrelation Less (InvImage (Prod.Lex (· < ·) (Prod.Lex (· < ·) (· < ·))) (fun s : Sel => (s.scopestk.length, togo s, s.triggers.length))) := by
    intro t s h
    show Prod.Lex _ _ (t.scopestk.length, togo t, t.triggers.length) (s.scopestk.length, togo s, s.triggers.length)
    rcases h with h | ⟨h, k | ⟨k, l⟩⟩
    · exact .left _ _ h
    · rw [h]
      exact .right _ (.left _ _ k)
    · rw [h, k]
      exact .right _ (.right _ l)
  exact this.wf (InvImage.wf _ (Prod.lex ⟨_, Nat.lt_wfRel.wf⟩ (Prod.lex ⟨_, Nat.lt_wfRel.wf⟩ ⟨_, Nat.lt_wfRel.wf⟩)).wf)

theorem Less.trans {s t u : Sel} (h : Less u t) (k : Less t s) : Less u s := by
  unfold Less at *
  omega

theorem loop_succ (n : Nat) (s : Sel) : Sel.fetchLoop (n + 1) s = (
    if s.iter < s.scope.tokenTo then (do
      let type ← Sel.matchToken s.iter
      M.modify fun s => { s with iter := s.iter + 1 }
      if type = 0 then Sel.fetchLoop n else pure type : M Sel Int)
    else if s.iter - s.scope.tokenTo < s.scope.followidx then
        match s.follows[s.iter - s.scope.tokenTo]? with
        | some t => if t < s.scope.tokenFrom then (do
            let type ← Sel.matchToken t
            M.modify fun s => { s with iter := s.iter + 1 }
            if type = 0 then Sel.fetchLoop n else pure type) else (match s.triggers with
        | t :: ts => do
          M.modify fun s => { s with triggers := ts }
          if t = 0 then Sel.fetchLoop n else pure t
        | [] => do
          M.modify fun s => { s with key := none }
          pure 0)
        | none => M.stop .ub
      else (match s.triggers with
        | t :: ts => do
          M.modify fun s => { s with triggers := ts }
          if t = 0 then Sel.fetchLoop n else pure t
        | [] => do
          M.modify fun s => { s with key := none }
          pure 0)) s := rfl

/-- The walk through the tokens comes to an end, with nothing out of bounds. -/
theorem loop_ends {a : Atm} (g : Good a) (s : Sel) : Sound a s → ∃ N r t, (∀ n, N ≤ n → Sel.fetchLoop n s = (.ok r, t)) ∧ Sound a t ∧
    t.scopestk = s.scopestk ∧ t.type = s.type ∧ (r ≠ 0 → Less t s) := by
  induction s using less_wf.induction with
  | _ s ih =>
  intro h
  -- the visit of a token
  have visit : ∀ i, s.iter < s.scope.tokenTo + s.scope.followidx → ∃ N r t, (∀ n, N ≤ n → (do
      let type ← Sel.matchToken i
      M.modify fun s => { s with iter := s.iter + 1 }
      if type = 0 then Sel.fetchLoop n else pure type : M Sel Int) s = (.ok r, t)) ∧ Sound a t ∧
      t.scopestk = s.scopestk ∧ t.type = s.type ∧ (r ≠ 0 → Less t s) := by
    intro i hi
    obtain ⟨r, t, h1, h2, h3⟩ := match_safe g h i
    have hl : Less { t with iter := t.iter + 1 } s := by
      refine .inr ⟨by rw [h3.stk], .inl ?_⟩
      show t.scope.tokenTo + t.scope.followidx - (t.iter + 1) < s.scope.tokenTo + s.scope.followidx - s.iter
      rw [h3.to', h3.idx, h3.iter]
      omega
    have hs : Sound a { t with iter := t.iter + 1 } := ⟨h2.atm, h2.states, h2.top, h2.fol, h2.refs, h2.levels⟩
    by_cases hr : r = 0
    · obtain ⟨N, r', t', k1, k2, k3, k4, k5⟩ := ih _ hl hs
      refine ⟨N, r', t', fun n hn => ?_, k2, k3.trans h3.stk, k4.trans h3.type, fun hx => (k5 hx).trans hl⟩
      rw [M.bind_ok h1, M.bind_ok (M.modify_run _ _), if_pos hr]
      exact k1 n hn
    · refine ⟨0, r, { t with iter := t.iter + 1 }, fun n hn => ?_, hs, h3.stk, h3.type, fun _ => hl⟩
      rw [M.bind_ok h1, M.bind_ok (M.modify_run _ _), if_neg hr]
      rfl
  have rest : ∃ N r t, (∀ n, N ≤ n → (match s.triggers with
        | t :: ts => do
          M.modify fun s => { s with triggers := ts }
          if t = 0 then Sel.fetchLoop n else pure t
        | [] => do
          M.modify fun s => { s with key := none }
          pure 0 : M Sel Int) s = (.ok r, t)) ∧ Sound a t ∧
      t.scopestk = s.scopestk ∧ t.type = s.type ∧ (r ≠ 0 → Less t s) := by
    cases ht : s.triggers with
    | nil => exact ⟨0, 0, { s with key := none }, fun n _ => rfl, ⟨h.atm, h.states, h.top, h.fol, h.refs, h.levels⟩, rfl, rfl, fun hx => (hx rfl).elim⟩
    | cons x ts =>
      have hl : Less { s with triggers := ts } s := .inr ⟨rfl, .inr ⟨rfl, by show ts.length < _; rw [ht]; simp⟩⟩
      have hs : Sound a { s with triggers := ts } := ⟨h.atm, h.states, h.top, h.fol, h.refs, h.levels⟩
      by_cases hr : x = 0
      · obtain ⟨N, r', t', k1, k2, k3, k4, k5⟩ := ih _ hl hs
        refine ⟨N, r', t', fun n hn => ?_, k2, k3, k4, fun hx => (k5 hx).trans hl⟩
        simp only []
        rw [M.bind_ok (M.modify_run _ _), if_pos hr]
        exact k1 n hn
      · refine ⟨0, x, { s with triggers := ts }, fun n hn => ?_, hs, rfl, rfl, fun _ => hl⟩
        simp only []
        rw [M.bind_ok (M.modify_run _ _), if_neg hr]
        rfl
  have up : ∀ {f : Nat → M Sel Int}, (∀ n, Sel.fetchLoop (n + 1) s = f n s) → (∃ N r t, (∀ n, N ≤ n → f n s = (.ok r, t)) ∧ Sound a t ∧
      t.scopestk = s.scopestk ∧ t.type = s.type ∧ (r ≠ 0 → Less t s)) → ∃ N r t, (∀ n, N ≤ n → Sel.fetchLoop n s = (.ok r, t)) ∧ Sound a t ∧
      t.scopestk = s.scopestk ∧ t.type = s.type ∧ (r ≠ 0 → Less t s) := by
    intro f hf ⟨N, r, t, h1, h2⟩
    refine ⟨N + 1, r, t, fun n hn => ?_, h2⟩
    cases n with
    | zero => omega
    | succ n =>
      rw [hf n]
      exact h1 n (by omega)
  by_cases c1 : s.iter < s.scope.tokenTo
  · refine up (fun n => ?_) (visit s.iter (by omega))
    rw [loop_succ, if_pos c1]
  · by_cases c2 : s.iter - s.scope.tokenTo < s.scope.followidx
    · obtain ⟨x, hx⟩ := get_of_lt (l := s.follows) (i := s.iter - s.scope.tokenTo) (by
        have := h.fol
        omega)
      by_cases c3 : x < s.scope.tokenFrom
      · refine up (fun n => ?_) (visit x (by omega))
        rw [loop_succ, if_neg c1, if_pos c2, hx]
        simp only []
        rw [if_pos c3]
      · refine up (fun n => ?_) rest
        rw [loop_succ, if_neg c1, if_pos c2, hx]
        simp only []
        rw [if_neg c3]
    · refine up (fun n => ?_) rest
      rw [loop_succ, if_neg c1, if_neg c2]

theorem fetch_ends {a : Atm} (g : Good a) {s : Sel} (h : Sound a s) : ∃ N r t, (∀ n, N ≤ n → Sel.fetch n s = (.ok r, t)) ∧ Sound a t ∧
    t.scopestk = s.scopestk ∧ t.type = s.type ∧ (r ≠ 0 → Less t s) := by
  unfold Sel.fetch
  by_cases hm : s.scope.mask.matches s.type = true
  · obtain ⟨N, r, t, h1, h2⟩ := loop_ends g s h
    refine ⟨N, r, t, fun n hn => ?_, h2⟩
    rw [M.bind_ok (M.get_run _), if_pos hm]
    exact h1 n hn
  · refine ⟨0, 0, { s with key := none }, fun n _ => ?_, ⟨h.atm, h.states, h.top, h.fol, h.refs, h.levels⟩, rfl, rfl, fun hx => (hx rfl).elim⟩
    rw [M.bind_ok (M.get_run _), if_neg hm]
    rfl

theorem init_safe {a : Atm} {s : Sel} (h : Sound a s) (type : ElementType) (key : List Byte) : Sound a (Sel.initElement type key s) := by
  unfold Sel.initElement
  by_cases ht : type = .OpenTag
  · simp only [if_pos ht]
    refine ⟨h.atm, h.states, Nat.le_refl _, Nat.le_refl _, h.refs, Nat.le_refl _, Nat.le_refl _, ?_, ?_⟩
    · intro f hf
      exact h.refs f (List.mem_of_mem_take hf)
    · show Levels s.scopestk s.tokens.length (s.follows.take s.follows.length)
      rw [List.take_length]
      exact h.levels
  · simp only [if_neg ht]
    exact ⟨h.atm, h.states, Nat.le_refl _, Nat.le_refl _, h.refs, h.levels⟩

theorem close_safe {a : Atm} {s : Sel} (h : Sound a s) : Sound a (Sel.closeElement s) ∧
    (Sel.closeElement s = s ∨ (Sel.closeElement s).scopestk.length < s.scopestk.length) := by
  unfold Sel.closeElement
  by_cases ht : s.type = .CloseTag ∨ s.type = .CloseTagIm
  · rw [if_pos ht]
    cases hs : s.scopestk with
    | nil => exact ⟨h, .inl rfl⟩
    | cons sc stk =>
      have hv := h.levels
      rw [hs] at hv
      obtain ⟨h1, h2, h3, h4⟩ := hv
      refine ⟨⟨h.atm, ?_, ?_, ?_, ?_, ?_⟩, .inr (by simp)⟩
      · intro t ht
        rcases List.mem_append.1 ht with ht | ht
        · exact h.states t (List.mem_of_mem_take ht)
        · rw [Nat.sub_eq_zero_of_le h1] at ht
          cases ht
      · simp only [List.length_append, List.length_take, List.length_replicate]
        omega
      · simp only [List.length_append, List.length_take, List.length_replicate]
        omega
      · simp only [Nat.sub_eq_zero_of_le h1, Nat.sub_eq_zero_of_le h2, List.replicate_zero, List.append_nil, List.length_take]
        intro f hf
        have := h3 f hf
        omega
      · simp only [Nat.sub_eq_zero_of_le h1, Nat.sub_eq_zero_of_le h2, List.replicate_zero, List.append_nil, List.length_take, Nat.min_eq_left h1]
        exact h4
  · rw [if_neg ht]
    exact ⟨h, .inl rfl⟩

theorem copy_safe {a : Atm} {s : Sel} (h : Sound a s) : Sound a (Sel.copy s) :=
  ⟨h.atm, h.states, Nat.zero_le _, Nat.zero_le _, h.refs, h.levels⟩

theorem grow_safe {a a' : Atm} {s : Sel} (h : Sound a s) (hl : a.length ≤ a'.length) : Sound a' { s with atm := a' } :=
  ⟨rfl, fun t ht => Nat.lt_of_lt_of_le (h.states t ht) hl, h.top, h.fol, h.refs, h.levels⟩

theorem walk_ends {a : Atm} (g : Good a) (post : Bool) (s : Sel) : Sound a s → ∀ e, ∃ N es t,
    (∀ n, N ≤ n → ∀ k, N ≤ k → Sel.walk n post k e s = (.ok es, t)) ∧ Sound a t := by
  induction s using less_wf.induction with
  | _ s ih =>
  intro h e
  have stop : ∀ (s : Sel) (n k : Nat), Sel.walk n post (k + 1) 0 s = (.ok [], s) := fun s n k => rfl
  by_cases he : e = 0
  · refine ⟨1, [], s, fun n _ k hk => ?_, h⟩
    obtain ⟨k, rfl⟩ : ∃ j, k = j + 1 := ⟨k - 1, by omega⟩
    rw [he, stop]
  · obtain ⟨N, r, t, h1, h2, h3, h4, h5⟩ := fetch_ends g h
    -- the state after the increment
    have hc : ∃ u, (∀ (f : M Sel (List Int)), (do
        if post then M.modify Sel.closeElement
        f : M Sel (List Int)) t = f u) ∧ Sound a u ∧ (u = t ∨ u.scopestk.length < t.scopestk.length) := by
      cases post with
      | false => exact ⟨t, fun f => rfl, h2, .inl rfl⟩
      | true => exact ⟨Sel.closeElement t, fun f => rfl, (close_safe h2).1, (close_safe h2).2⟩
    obtain ⟨u, c1, c2, c3⟩ := hc
    have hu : ∃ M' es v, (∀ n, M' ≤ n → ∀ k, M' ≤ k → Sel.walk n post k r u = (.ok es, v)) ∧ Sound a v := by
      by_cases hr : r = 0
      · refine ⟨1, [], u, fun n _ k hk => ?_, c2⟩
        obtain ⟨k, rfl⟩ : ∃ j, k = j + 1 := ⟨k - 1, by omega⟩
        rw [hr, stop]
      · refine ih u ?_ c2 r
        rcases c3 with rfl | c3
        · exact h5 hr
        · refine .inl ?_
          rw [h3] at c3
          exact c3
    obtain ⟨M', es, v, k1, k2⟩ := hu
    refine ⟨N + M' + 1, e :: es, v, fun n hn k hk => ?_, k2⟩
    obtain ⟨k, rfl⟩ : ∃ j, k = j + 1 := ⟨k - 1, by omega⟩
    unfold Sel.walk
    rw [if_neg he, M.bind_ok (h1 n (by omega))]
    refine (c1 _).trans ?_
    rw [M.bind_ok (k1 n (by omega) k (by omega))]
    rfl

theorem push_ends {a : Atm} (g : Good a) {s : Sel} (h : Sound a s) (post : Bool) (type : ElementType) (key : List Byte) :
    ∃ N es t, (∀ n, N ≤ n → Sel.push n post type key s = (.ok es, t)) ∧ Sound a t := by
  obtain ⟨N, r, t, h1, h2, _⟩ := fetch_ends g (init_safe h type key)
  obtain ⟨N', es, u, k1, k2⟩ := walk_ends g post t h2 r
  refine ⟨N + N', es, Sel.closeElement u, fun n hn => ?_, (close_safe k2).1⟩
  unfold Sel.push
  rw [M.bind_ok (M.modify_run _ _), M.bind_ok (h1 n (by omega)), M.bind_ok (k1 n (by omega) n (by omega))]
  rfl

theorem mk_safe {a : Atm} (g : Good a) : ∃ s, Sel.mk' a = .ok s ∧ Sound a s := by
  have h0 : Sound a { atm := a } := ⟨rfl, (fun _ h => nomatch h), Nat.le_refl _, Nat.le_refl _, (fun _ h => nomatch h), trivial⟩
  obtain ⟨s, h1, h2, _⟩ := expand_safe g (a.length + 1) (if 0 < a.length then some 0 else none) { atm := a } h0 (fun i hi => by
    split at hi
    · cases hi
      omega
    · cases hi)
  refine ⟨s, ?_, h2⟩
  unfold Sel.mk'
  rw [h1]

/-! ## Inspection -/

theorem matching_safe {a : Atm} {s : Sel} (h : Sound a s) (type : ElementType) : ∀ is : List Nat, (∀ i ∈ is, i < s.tokens.length) →
    ∃ l, Sel.matching type is s = (.ok l, s) ∧ ∀ j ∈ l, j < a.length
  | [], _ => ⟨[], rfl, fun _ h => nomatch h⟩
  | i :: is, hi => by
    obtain ⟨t, h1, h2⟩ := tokenAt_safe (hi i (List.mem_cons_self ..))
    obtain ⟨l, k1, k2⟩ := matching_safe h type is (fun j hj => hi j (List.mem_cons_of_mem _ hj))
    unfold Sel.matching
    rw [M.bind_ok h1, M.bind_ok k1]
    refine ⟨_, rfl, fun j hj => ?_⟩
    split at hj
    · rcases List.mem_cons.1 hj with rfl | hj
      · exact h.states t (List.mem_of_getElem? h2)
      · exact k2 j hj
    · exact k2 j hj

theorem followsAt_safe {a : Atm} {s : Sel} (h : Sound a s) (type : ElementType) : ∀ m k : Nat, k + m ≤ s.follows.length →
    ∃ l, Sel.followsAt type m k s = (.ok l, s) ∧ ∀ j ∈ l, j < a.length
  | 0, _, _ => ⟨[], rfl, fun _ h => nomatch h⟩
  | m + 1, k, hk => by
    obtain ⟨i, hi⟩ := get_of_lt (l := s.follows) (i := k) (by omega)
    obtain ⟨l, k1, k2⟩ := matching_safe h type [i] (fun j hj => by
      cases List.mem_singleton.1 hj
      exact h.refs i (List.mem_of_getElem? hi))
    obtain ⟨l', j1, j2⟩ := followsAt_safe h type m (k + 1) (by omega)
    refine ⟨l ++ l', ?_, fun j hj => ?_⟩
    · unfold Sel.followsAt
      rw [hi]
      simp only []
      rw [M.bind_ok k1, M.bind_ok j1]
      rfl
    · rcases List.mem_append.1 hj with hj | hj
      · exact k2 j hj
      · exact j2 j hj

theorem matchingStates_safe {a : Atm} {s : Sel} (h : Sound a s) (type : ElementType) (w : Bool) :
    ∃ l, Sel.matchingStates type w s = (.ok l, s) ∧ ∀ j ∈ l, j < a.length := by
  obtain ⟨l, h1, h2⟩ := matching_safe h type (List.range' s.scope.tokenTo (s.tokens.length - s.scope.tokenTo)) (fun i hi => by
    have := h.top
    have := List.mem_range'_1.1 hi
    omega)
  unfold Sel.matchingStates
  rw [M.bind_ok (M.get_run _), M.bind_ok h1]
  cases w with
  | false => exact ⟨l, rfl, h2⟩
  | true =>
    obtain ⟨l', k1, k2⟩ := followsAt_safe h type s.scope.followidx 0 (by
      have := h.fol
      omega)
    rw [if_pos rfl, M.bind_ok k1]
    refine ⟨l ++ l', rfl, fun j hj => ?_⟩
    rcases List.mem_append.1 hj with hj | hj
    · exact h2 j hj
    · exact k2 j hj

theorem emittedFrom_safe {a : Atm} (g : Good a) (type : ElementType) : ∀ (n : Nat) (o : Option Nat), (∀ i, o = some i → i < a.length ∧ a.length - i < n) →
    ∃ l, Atm.emittedFrom type n o a = (.ok l, a)
  | 0, none, _ => ⟨[], rfl⟩
  | _ + 1, none, _ => ⟨[], rfl⟩
  | 0, some i, hi => by
    have := (hi i rfl).2
    omega
  | n + 1, some i, hi => by
    obtain ⟨h1, h2⟩ := hi i rfl
    obtain ⟨st, hst⟩ := get_of_lt h1
    obtain ⟨l, k⟩ := emittedFrom_safe g type n st.link (fun j hj => by
      have := g.link i st j hst hj
      omega)
    unfold Atm.emittedFrom
    rw [M.bind_ok (stateAt_ok hst), M.bind_ok k]
    exact ⟨_, rfl⟩

theorem emitted_safe {a : Atm} (g : Good a) {i : Nat} (hi : i < a.length) (type : ElementType) : ∃ l, Atm.emitted i type a = (.ok l, a) := by
  obtain ⟨st, hst⟩ := get_of_lt hi
  unfold Atm.emitted
  rw [M.bind_ok (M.get_run _), M.bind_ok (stateAt_ok hst)]
  exact emittedFrom_safe g type _ st.next (fun j hj => by
    have := g.next i st j hst hj
    omega)

end TW.Path
