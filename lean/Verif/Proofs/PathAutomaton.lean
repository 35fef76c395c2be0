import Verif.Model.PathSelect

/-!
# The structure of the automata that can be built
-/

namespace TW.Path

/-- What a step asks for. -/
structure Edge where
  mask : Mask
  key : Option (List Byte)
  follow : Bool
  deriving DecidableEq, Repr

def State.edge (s : State) : Edge := { mask := s.core.mask, key := s.key, follow := s.core.follow }

/-- The states linked to a state. -/
inductive Chain (a : Atm) : Option Nat → List Nat → Prop
  | nil : Chain a none []
  | cons {i st l} : a[i]? = some st → Chain a st.link l → Chain a (some i) (i :: l)

/-- The automaton is a forest of chains: every state but the root is the target of one link or transition,
and lies behind it. `lab` are the steps leading to the states. -/
structure Ok (a : Atm) (lab : List (List Edge)) : Prop where
  len : lab.length = a.length
  root : 0 < a.length → lab[0]? = some []
  link : ∀ (s : Nat) (st : State) (t : Nat), a[s]? = some st → st.link = some t → s < t ∧ t < a.length ∧ lab[t]? = lab[s]?
  next : ∀ (s : Nat) (st : State) (t : Nat), a[s]? = some st → st.next = some t →
    s < t ∧ t < a.length ∧ ∃ L, lab[s]? = some L ∧ lab[t]? = some (L ++ [st.edge])
  injL : ∀ (s s' : Nat) (st st' : State) (t : Nat), a[s]? = some st → a[s']? = some st' → st.link = some t → st'.link = some t → s = s'
  injN : ∀ (s s' : Nat) (st st' : State) (t : Nat), a[s]? = some st → a[s']? = some st' → st.next = some t → st'.next = some t → s = s'
  injX : ∀ (s s' : Nat) (st st' : State) (t : Nat), a[s]? = some st → a[s']? = some st' → st.link = some t → st'.next = some t → False
  par : ∀ t, t < a.length → t = 0 ∨ (∃ (s : Nat) (st : State), a[s]? = some st ∧ (st.link = some t ∨ st.next = some t))
  edge : ∀ (s : Nat) (st : State) (t : Nat), a[s]? = some st → st.next = some t →
    st.core.typeidx = 0 ∧ st.core.cntEnd = -1 ∧ ∃ op, st.core.mask = ({} : Mask).seekop op
  plain : ∀ (s : Nat) (st : State), a[s]? = some st → st.next = none → st.key = none

theorem Chain.det {a : Atm} {h : Option Nat} {l l' : List Nat} (c : Chain a h l) (c' : Chain a h l') : l = l' := by
  induction c generalizing l' with
  | nil => cases c'; rfl
  | cons hs _ ih =>
    cases c' with
    | cons hs' c' =>
      rw [hs] at hs'
      cases hs'
      rw [ih c']

theorem Chain.mem_lt {a : Atm} {h : Option Nat} {l : List Nat} (c : Chain a h l) : ∀ t ∈ l, t < a.length := by
  induction c with
  | nil => intro t ht; cases ht
  | cons hs _ ih =>
    intro t ht
    rcases List.mem_cons.1 ht with rfl | ht
    · exact (List.getElem?_eq_some_iff.1 hs).1
    · exact ih t ht

/-- Members of a chain are the head or linked to by another member. -/
theorem Chain.back {a : Atm} {h : Option Nat} {l : List Nat} (c : Chain a h l) :
    ∀ t ∈ l, h = some t ∨ ∃ s ∈ l, ∃ st, a[s]? = some st ∧ st.link = some t := by
  induction c with
  | nil => intro t ht; cases ht
  | @cons i st l hs c ih =>
    intro t ht
    rcases List.mem_cons.1 ht with rfl | ht
    · exact .inl rfl
    · rcases ih t ht with e | ⟨s, hs', st', h1, h2⟩
      · exact .inr ⟨i, List.mem_cons_self .., st, hs, e⟩
      · exact .inr ⟨s, List.mem_cons_of_mem _ hs', st', h1, h2⟩

theorem Chain.fwd {a : Atm} {h : Option Nat} {l : List Nat} (c : Chain a h l) :
    ∀ s ∈ l, ∀ st t, a[s]? = some st → st.link = some t → t ∈ l := by
  induction c with
  | nil => intro t ht; cases ht
  | @cons i st l hs c ih =>
    intro s hsl st' t h1 h2
    rcases List.mem_cons.1 hsl with rfl | hm
    · rw [hs] at h1
      cases h1
      rw [h2] at c
      cases c with
      | cons _ _ => exact List.mem_cons_of_mem _ (List.mem_cons_self ..)
    · exact List.mem_cons_of_mem _ (ih s hm st' t h1 h2)

theorem Chain.head_mem {a : Atm} {i : Nat} {l : List Nat} (c : Chain a (some i) l) : i ∈ l := by
  cases c
  exact List.mem_cons_self ..

namespace Ok

variable {a : Atm} {lab : List (List Edge)}

theorem chain_aux (ok : Ok a lab) : ∀ n i, a.length - i ≤ n → i < a.length →
    ∃ l, Chain a (some i) l ∧ (∀ t ∈ l, i ≤ t) ∧ l.Nodup ∧ l.length ≤ a.length - i := by
  intro n
  induction n with
  | zero => intro i h1 h2; omega
  | succ n ih =>
    intro i h1 h2
    obtain ⟨st, hst⟩ : ∃ st, a[i]? = some st := ⟨_, List.getElem?_eq_getElem h2⟩
    cases hl : st.link with
    | none =>
      refine ⟨[i], .cons hst (hl ▸ .nil), ?_, by simp, by simp; omega⟩
      intro t ht
      simp at ht
      omega
    | some t =>
      obtain ⟨h3, h4, -⟩ := ok.link i st t hst hl
      obtain ⟨l, c, hle, hnd, hlen⟩ := ih t (by omega) h4
      refine ⟨i :: l, .cons hst (hl ▸ c), ?_, ?_, by simp; omega⟩
      · intro u hu
        rcases List.mem_cons.1 hu with rfl | hu
        · exact Nat.le_refl _
        · have := hle u hu; omega
      · refine List.nodup_cons.2 ⟨fun hm => ?_, hnd⟩
        have := hle i hm
        omega

theorem chain (ok : Ok a lab) {i : Nat} (h : i < a.length) :
    ∃ l, Chain a (some i) l ∧ (∀ t ∈ l, i ≤ t) ∧ l.Nodup ∧ l.length ≤ a.length := by
  obtain ⟨l, h1, h2, h3, h4⟩ := ok.chain_aux _ i (Nat.le_refl _) h
  exact ⟨l, h1, h2, h3, by omega⟩

/-- The chain behind a transition. -/
theorem chain_next (ok : Ok a lab) {s : Nat} {st : State} (h : a[s]? = some st) :
    ∃ l, Chain a st.next l ∧ l.Nodup ∧ l.length ≤ a.length := by
  cases hn : st.next with
  | none => exact ⟨[], .nil, List.nodup_nil, Nat.zero_le _⟩
  | some t =>
    obtain ⟨-, h2, -⟩ := ok.next s st t h hn
    obtain ⟨l, h1, _, h3, h4⟩ := ok.chain h2
    exact ⟨l, h1, h3, h4⟩

theorem chain_lab (ok : Ok a lab) {h : Option Nat} {l : List Nat} (c : Chain a h l) :
    ∀ t ∈ l, ∃ i, h = some i ∧ lab[t]? = lab[i]? := by
  induction c with
  | nil => intro t ht; cases ht
  | @cons i st l hs c ih =>
    intro t ht
    rcases List.mem_cons.1 ht with rfl | ht
    · exact ⟨_, rfl, rfl⟩
    · obtain ⟨j, h1, h2⟩ := ih t ht
      obtain ⟨-, -, h3⟩ := ok.link i st j hs h1
      exact ⟨i, rfl, h2.trans h3⟩

/-- `t` is activated by the transition of `s`. -/
def EdgeOf (a : Atm) (s t : Nat) : Prop :=
  ∃ st l, a[s]? = some st ∧ Chain a st.next l ∧ t ∈ l

theorem edge_lab (ok : Ok a lab) {s t : Nat} (h : EdgeOf a s t) :
    ∃ st L, a[s]? = some st ∧ lab[s]? = some L ∧ lab[t]? = some (L ++ [st.edge]) := by
  obtain ⟨st, l, h1, h2, h3⟩ := h
  obtain ⟨i, h4, h5⟩ := ok.chain_lab h2 t h3
  obtain ⟨-, -, L, h6, h7⟩ := ok.next s st i h1 h4
  exact ⟨st, L, h1, h6, h5.trans h7⟩

theorem edge_unique (ok : Ok a lab) : ∀ n t, t ≤ n → ∀ s s', EdgeOf a s t → EdgeOf a s' t → s = s' := by
  intro n
  induction n with
  | zero =>
    intro t ht s s' h
    obtain ⟨st, l, h1, h2, h3⟩ := h
    exfalso
    rcases h2.back t h3 with e | ⟨u, _, su, e1, e2⟩
    · obtain ⟨e3, -⟩ := ok.next s st t h1 e; omega
    · obtain ⟨e3, -⟩ := ok.link u su t e1 e2; omega
  | succ n ih =>
    intro t ht s s' h h'
    obtain ⟨st, l, h1, h2, h3⟩ := h
    obtain ⟨st', l', h1', h2', h3'⟩ := h'
    rcases h2.back t h3 with e | ⟨u, hu, su, e1, e2⟩
    · rcases h2'.back t h3' with e' | ⟨u', hu', su', e1', e2'⟩
      · exact ok.injN s s' st st' t h1 h1' e e'
      · exact (ok.injX u' s su' st t e1' h1 e2' e).elim
    · rcases h2'.back t h3' with e' | ⟨u', hu', su', e1', e2'⟩
      · exact (ok.injX u s' su st' t e1 h1' e2 e').elim
      · have := ok.injL u u' su su' t e1 e1' e2 e2'
        subst this
        obtain ⟨e3, -⟩ := ok.link u su t e1 e2
        exact ih u (by omega) s s' ⟨st, l, h1, h2, hu⟩ ⟨st', l', h1', h2', hu'⟩

theorem edgeOf_inj (ok : Ok a lab) {s s' t : Nat} (h : EdgeOf a s t) (h' : EdgeOf a s' t) : s = s' :=
  ok.edge_unique t t (Nat.le_refl _) s s' h h'

/-- The states of the root are those without steps. -/
theorem root_mem (ok : Ok a lab) {l : List Nat} (c : Chain a (some 0) l) :
    ∀ t, lab[t]? = some [] → t ∈ l := by
  suffices ∀ n t, t ≤ n → lab[t]? = some [] → t ∈ l from fun t => this t t (Nat.le_refl _)
  intro n
  induction n with
  | zero =>
    intro t ht _
    have : t = 0 := by omega
    subst this
    exact c.head_mem
  | succ n ih =>
    intro t ht hl
    have htl : t < a.length := by rw [← ok.len]; exact (List.getElem?_eq_some_iff.1 hl).1
    rcases ok.par t htl with rfl | ⟨s, st, h1, h2 | h2⟩
    · exact c.head_mem
    · obtain ⟨h3, -, h4⟩ := ok.link s st t h1 h2
      exact c.fwd s (ih s (by omega) (h4 ▸ hl)) st t h1 h2
    · obtain ⟨-, -, L, -, h4⟩ := ok.next s st t h1 h2
      rw [h4] at hl
      simp at hl

/-- A state with steps is activated by the transition with the last of them. -/
theorem parent (ok : Ok a lab) : ∀ n t, t ≤ n → ∀ L e, lab[t]? = some (L ++ [e]) →
    ∃ s st, a[s]? = some st ∧ lab[s]? = some L ∧ st.edge = e ∧ EdgeOf a s t := by
  intro n
  induction n with
  | zero =>
    intro t ht L e hl
    have htl : t < a.length := by rw [← ok.len]; exact (List.getElem?_eq_some_iff.1 hl).1
    have : t = 0 := by omega
    subst this
    rw [ok.root htl] at hl
    simp at hl
  | succ n ih =>
    intro t ht L e hl
    have htl : t < a.length := by rw [← ok.len]; exact (List.getElem?_eq_some_iff.1 hl).1
    rcases ok.par t htl with rfl | ⟨s, st, h1, h2 | h2⟩
    · rw [ok.root htl] at hl
      simp at hl
    · obtain ⟨h3, -, h4⟩ := ok.link s st t h1 h2
      obtain ⟨s', st', g1, g2, g3, st'', l, g4, g5, g6⟩ := ih s (by omega) L e (h4 ▸ hl)
      exact ⟨s', st', g1, g2, g3, st'', l, g4, g5, g5.fwd s g6 st t h1 h2⟩
    · obtain ⟨h5, h6, L', h3, h4⟩ := ok.next s st t h1 h2
      rw [h4] at hl
      have := List.append_inj' (Option.some.inj hl) rfl
      obtain ⟨e1, e2⟩ := this
      subst e1
      obtain ⟨l, c, -⟩ := ok.chain h6
      exact ⟨s, st, h1, h3, (List.cons.inj e2).1, st, l, h1, h2 ▸ c, c.head_mem⟩

theorem parent' (ok : Ok a lab) {t : Nat} {L : List Edge} {e : Edge} (h : lab[t]? = some (L ++ [e])) :
    ∃ s st, a[s]? = some st ∧ lab[s]? = some L ∧ st.edge = e ∧ EdgeOf a s t :=
  ok.parent t t (Nat.le_refl _) L e h

end Ok

end TW.Path
