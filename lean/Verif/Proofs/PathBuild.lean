import Verif.Proofs.PathAutomaton

/-!
# What the calls of the interface add to an automaton
-/

namespace TW.Path

theorem stateAt_run {a : Atm} {i : Nat} {st : State} (h : a[i]? = some st) : Atm.stateAt i a = (.ok st, a) := by
  unfold Atm.stateAt
  rw [h]

theorem change_run {a : Atm} {i : Nat} {st : State} {g : State → State} (h : a[i]? = some st) :
    Atm.change i g a = (.ok (), a.set i (g st)) := by
  unfold Atm.change
  rw [h]

theorem isempty_link {st : State} (h : st.link = none) : st.isempty = false := by
  unfold State.isempty
  rw [h]
  simp

theorem isempty_link' {st : State} {l : Nat} (h : st.link = some (l + 1)) : st.isempty = false := by
  unfold State.isempty
  rw [h]
  simp

/-- The automaton with states added behind the last one of a chain. -/
def grow (a : Atm) (l : Nat) (st : State) (new : List State) : Atm :=
  a.set l { st with link := some a.length } ++ new

/-- The looking for a step does not change the automaton; it fails at the end of the chain. -/
theorem seekStep_run {a : Atm} (pl : ∀ (s : Nat) (st : State), a[s]? = some st → st.next = none → st.key = none)
    (mask : Mask) (key : List Byte) (follow : Bool) {i : Nat} {l : List Nat}
    (c : Chain a (some i) l) : ∀ n, l.length ≤ n →
    (∃ j ee st, Atm.seekStep mask key follow n i a = (.ok (some j, ee), a) ∧ ee ∈ l ∧ a[ee]? = some st ∧
      st.key = some key ∧ st.core.follow = follow ∧ mask = st.core.mask ∧ st.next = some j) ∨
    (∃ ee st, Atm.seekStep mask key follow n i a = (.ok (none, ee), a) ∧ ee ∈ l ∧ a[ee]? = some st ∧
      st.link = none) := by
  generalize hh : some i = h at c
  induction c generalizing i with
  | nil => cases hh
  | @cons i st l hs c ih =>
    cases hh
    intro n hn
    cases n with
    | zero => simp at hn
    | succ n =>
      unfold Atm.seekStep
      rw [M.bind_ok (stateAt_run hs)]
      by_cases hc : st.key = some key ∧ st.core.follow = follow ∧ mask = st.core.mask
      · rw [if_pos hc]
        cases hnx : st.next with
        | none =>
          have := pl _ st hs hnx
          rw [hc.1] at this
          cases this
        | some j => exact .inl ⟨j, i, st, rfl, List.mem_cons_self .., hs, hc.1, hc.2.1, hc.2.2, hnx⟩
      · rw [if_neg hc]
        cases hl : st.link with
        | none => exact .inr ⟨i, st, rfl, List.mem_cons_self .., hs, hl⟩
        | some t =>
          simp only [List.length_cons] at hn
          rcases ih (i := t) hl.symm n (by omega) with ⟨j, ee, st', h1, h2, h3⟩ | ⟨ee, st', h1, h2, h3⟩
          · exact .inl ⟨j, ee, st', h1, List.mem_cons_of_mem _ h2, h3⟩
          · exact .inr ⟨ee, st', h1, List.mem_cons_of_mem _ h2, h3⟩

theorem lastLink_run {a : Atm} {i : Nat} {l : List Nat} (c : Chain a (some i) l) : ∀ n, l.length ≤ n →
    ∃ ee st, Atm.lastLink n i a = (.ok ee, a) ∧ ee ∈ l ∧ a[ee]? = some st ∧ st.link = none := by
  generalize hh : some i = h at c
  induction c generalizing i with
  | nil => cases hh
  | @cons i st l hs c ih =>
    cases hh
    intro n hn
    cases n with
    | zero => simp at hn
    | succ n =>
      unfold Atm.lastLink
      rw [M.bind_ok (stateAt_run hs)]
      cases hl : st.link with
      | none => exact ⟨i, st, rfl, List.mem_cons_self .., hs, hl⟩
      | some t =>
        simp only [List.length_cons] at hn
        obtain ⟨ee, st', h1, h2, h3⟩ := ih (i := t) hl.symm n (by omega)
        exact ⟨ee, st', h1, List.mem_cons_of_mem _ h2, h3⟩

/-- A new state is linked to the end of the chain. -/
theorem freeState_run {a : Atm} {lab : List (List Edge)} (ok : Ok a lab) {i : Nat} (hi : i < a.length) :
    ∃ l st, Atm.freeState i a = (.ok a.length, grow a l st [{}]) ∧ a[l]? = some st ∧ st.link = none ∧
      lab[l]? = lab[i]? := by
  obtain ⟨ch, c, hle, hnd, hlen⟩ := ok.chain hi
  obtain ⟨si, hsi⟩ : ∃ st, a[i]? = some st := ⟨_, List.getElem?_eq_getElem hi⟩
  obtain ⟨l, st, h1, h2, h3, h4⟩ := lastLink_run c (a.length + 1) (by omega)
  have he : si.isempty = false := by
    cases hl : si.link with
    | none => exact isempty_link hl
    | some t =>
      obtain ⟨h5, -⟩ := ok.link i si t hsi hl
      obtain ⟨t', rfl⟩ : ∃ t', t = t' + 1 := ⟨t - 1, by omega⟩
      exact isempty_link' hl
  obtain ⟨i', h5, h6⟩ := ok.chain_lab c l h2
  cases h5
  refine ⟨l, st, ?_, h3, h4, h6⟩
  unfold Atm.freeState
  rw [M.bind_ok (stateAt_run hsi), he]
  simp only [Bool.not_false, if_true]
  rw [M.bind_ok (M.get_run _), M.bind_ok h1, M.bind_ok (change_run h3)]
  rfl

/-- Where a new transition goes. -/
theorem grow_get {a : Atm} {l : Nat} {st : State} {new : List State} (h : a[l]? = some st) {i : Nat} {x : State}
    (hx : (grow a l st new)[i]? = some x) :
    (i = l ∧ x = { st with link := some a.length }) ∨ (i ≠ l ∧ a[i]? = some x) ∨
      (a.length ≤ i ∧ new[i - a.length]? = some x) := by
  unfold grow at hx
  have hl := (List.getElem?_eq_some_iff.1 h).1
  by_cases hi : i < a.length
  · rw [List.getElem?_append_left (by simpa using hi)] at hx
    by_cases e : i = l
    · subst e
      rw [List.getElem?_set_self hl] at hx
      cases hx
      exact .inl ⟨rfl, rfl⟩
    · rw [List.getElem?_set_ne (fun h => e h.symm)] at hx
      exact .inr (.inl ⟨e, hx⟩)
  · rw [List.getElem?_append_right (by simp; omega)] at hx
    simp only [List.length_set] at hx
    exact .inr (.inr ⟨by omega, hx⟩)

theorem grow_old {a : Atm} {l : Nat} {st : State} {new : List State} (h : a[l]? = some st) {i : Nat} {x : State}
    (hx : a[i]? = some x) : ∃ y, (grow a l st new)[i]? = some y ∧ y.next = x.next ∧ y.core = x.core ∧ y.key = x.key ∧
      (y.link = x.link ∨ (i = l ∧ y.link = some a.length)) := by
  unfold grow
  have hl := (List.getElem?_eq_some_iff.1 h).1
  have hi := (List.getElem?_eq_some_iff.1 hx).1
  rw [List.getElem?_append_left (by simpa using hi)]
  by_cases e : i = l
  · subst e
    rw [hx] at h
    cases h
    exact ⟨_, List.getElem?_set_self hl, rfl, rfl, rfl, .inr ⟨rfl, rfl⟩⟩
  · exact ⟨x, by rw [List.getElem?_set_ne (fun h => e h.symm), hx], rfl, rfl, rfl, .inl rfl⟩

theorem grow_new {a : Atm} {l : Nat} {st : State} {new : List State} {k : Nat} :
    (grow a l st new)[a.length + k]? = new[k]? := by
  unfold grow
  rw [List.getElem?_append_right (by simp)]
  simp

theorem grow_length {a : Atm} {l : Nat} {st : State} {new : List State} :
    (grow a l st new).length = a.length + new.length := by
  unfold grow
  simp

theorem lab_old {lab x : List (List Edge)} {i : Nat} (h : i < lab.length) : (lab ++ x)[i]? = lab[i]? :=
  List.getElem?_append_left h

/-- An output state at the end of a chain. -/
theorem Ok.output {a : Atm} {lab : List (List Edge)} (ok : Ok a lab) {l : Nat} {st o : State} {L : List Edge}
    (h : a[l]? = some st) (hk : st.link = none) (hL : lab[l]? = some L)
    (h1 : o.link = none) (h2 : o.next = none) (h3 : o.key = none) :
    Ok (grow a l st [o]) (lab ++ [L]) := by
  have hl := (List.getElem?_eq_some_iff.1 h).1
  have hlen := ok.len
  have hnew : (lab ++ [L])[a.length]? = some L := by
    rw [List.getElem?_append_right (by omega), ← hlen]
    simp
  have one : ∀ {k : Nat} {x : State}, [o][k]? = some x → k = 0 ∧ x = o := by
    intro k x hx
    cases k with
    | zero => simp at hx; exact ⟨rfl, hx.symm⟩
    | succ k => simp at hx
  constructor
  · simp [grow_length, hlen]
  · intro _
    rw [lab_old (by omega)]
    exact ok.root (by omega)
  · intro s x t hx ht
    rw [grow_length]
    rcases grow_get h hx with ⟨rfl, rfl⟩ | ⟨h4, h5⟩ | ⟨h4, h5⟩
    · cases ht
      exact ⟨hl, by simp, by rw [hnew, lab_old (by omega), hL]⟩
    · obtain ⟨h6, h7, h8⟩ := ok.link s x t h5 ht
      exact ⟨h6, by omega, by rw [lab_old (by omega), lab_old (by omega), h8]⟩
    · obtain ⟨_, rfl⟩ := one h5
      rw [h1] at ht
      cases ht
  · intro s x t hx ht
    rw [grow_length]
    have : a[s]? = some x ∨ (s = l ∧ x = { st with link := some a.length }) := by
      rcases grow_get h hx with h4 | ⟨h4, h5⟩ | ⟨h4, h5⟩
      · exact .inr h4
      · exact .inl h5
      · obtain ⟨_, rfl⟩ := one h5
        rw [h2] at ht
        cases ht
    rcases this with h5 | ⟨rfl, rfl⟩
    · obtain ⟨h6, h7, L', h8, h9⟩ := ok.next s x t h5 ht
      exact ⟨h6, by omega, L', by rw [lab_old (by omega), h8], by rw [lab_old (by omega), h9]⟩
    · obtain ⟨h6, h7, L', h8, h9⟩ := ok.next s st t h ht
      exact ⟨h6, by omega, L', by rw [lab_old (by omega), h8], by rw [lab_old (by omega), h9]; rfl⟩
  · intro s s' x x' t hx hx' ht ht'
    rcases grow_get h hx with ⟨rfl, rfl⟩ | ⟨h4, h5⟩ | ⟨h4, h5⟩
    · rcases grow_get h hx' with ⟨rfl, rfl⟩ | ⟨g4, g5⟩ | ⟨g4, g5⟩
      · rfl
      · cases ht
        have := (ok.link s' x' _ g5 ht').2.1
        omega
      · obtain ⟨_, rfl⟩ := one g5
        rw [h1] at ht'
        cases ht'
    · rcases grow_get h hx' with ⟨rfl, rfl⟩ | ⟨g4, g5⟩ | ⟨g4, g5⟩
      · cases ht'
        have := (ok.link s x _ h5 ht).2.1
        omega
      · exact ok.injL s s' x x' t h5 g5 ht ht'
      · obtain ⟨_, rfl⟩ := one g5
        rw [h1] at ht'
        cases ht'
    · obtain ⟨_, rfl⟩ := one h5
      rw [h1] at ht
      cases ht
  · have key : ∀ {s : Nat} {x : State} {t : Nat}, (grow a l st [o])[s]? = some x → x.next = some t →
        ∃ y : State, a[s]? = some y ∧ y.next = some t := by
      intro s x t hx ht
      rcases grow_get h hx with ⟨rfl, rfl⟩ | ⟨h4, h5⟩ | ⟨h4, h5⟩
      · exact ⟨st, h, ht⟩
      · exact ⟨x, h5, ht⟩
      · obtain ⟨_, rfl⟩ := one h5
        rw [h2] at ht
        cases ht
    intro s s' x x' t hx hx' ht ht'
    obtain ⟨y, e1, e2⟩ := key hx ht
    obtain ⟨y', e1', e2'⟩ := key hx' ht'
    exact ok.injN s s' y y' t e1 e1' e2 e2'
  · have key : ∀ {s : Nat} {x : State} {t : Nat}, (grow a l st [o])[s]? = some x → x.next = some t →
        ∃ y : State, a[s]? = some y ∧ y.next = some t := by
      intro s x t hx ht
      rcases grow_get h hx with ⟨rfl, rfl⟩ | ⟨h4, h5⟩ | ⟨h4, h5⟩
      · exact ⟨st, h, ht⟩
      · exact ⟨x, h5, ht⟩
      · obtain ⟨_, rfl⟩ := one h5
        rw [h2] at ht
        cases ht
    intro s s' x x' t hx hx' ht ht'
    obtain ⟨y', e1', e2'⟩ := key hx' ht'
    rcases grow_get h hx with ⟨rfl, rfl⟩ | ⟨h4, h5⟩ | ⟨h4, h5⟩
    · cases ht
      have := (ok.next s' y' _ e1' e2').2.1
      omega
    · exact ok.injX s s' x y' t h5 e1' ht e2'
    · obtain ⟨_, rfl⟩ := one h5
      rw [h1] at ht
      cases ht
  · intro t ht
    rw [grow_length] at ht
    by_cases e : t < a.length
    · rcases ok.par t e with h4 | ⟨s, x, h4, h5⟩
      · exact .inl h4
      · obtain ⟨y, g1, g2, g3, g4, g5⟩ := grow_old (new := [o]) h h4
        refine .inr ⟨s, y, g1, ?_⟩
        rcases h5 with h5 | h5
        · rcases g5 with g5 | ⟨rfl, g5⟩
          · exact .inl (g5.trans h5)
          · rw [h] at h4
            cases h4
            rw [hk] at h5
            cases h5
        · exact .inr (g2.trans h5)
    · simp only [List.length_singleton] at ht
      have : t = a.length := by omega
      subst this
      obtain ⟨y, g1, g2, g3, g4, g5⟩ := grow_old (new := [o]) h h
      refine .inr ⟨l, y, g1, .inl ?_⟩
      unfold grow at g1
      rw [List.getElem?_append_left (by simpa using hl), List.getElem?_set_self hl] at g1
      cases g1
      rfl
  · intro s x t hx ht
    rcases grow_get h hx with ⟨rfl, rfl⟩ | ⟨h4, h5⟩ | ⟨h4, h5⟩
    · exact ok.edge s st t h ht
    · exact ok.edge s x t h5 ht
    · obtain ⟨_, rfl⟩ := one h5
      rw [h2] at ht
      cases ht
  · intro s x hx ht
    rcases grow_get h hx with ⟨rfl, rfl⟩ | ⟨h4, h5⟩ | ⟨h4, h5⟩
    · exact ok.plain s st h ht
    · exact ok.plain s x h5 ht
    · obtain ⟨_, rfl⟩ := one h5
      exact h3

/-- A transition in a fresh state to another one. -/
theorem Ok.transition {a : Atm} {lab : List (List Edge)} (ok : Ok a lab) {i : Nat} {x : State} {L : List Edge} {op : Op}
    {key : Option (List Byte)} {follow : Bool} (h : a[i]? = some {}) (hL : lab[i]? = some L)
    (hx : x = ({} : State).defineNext op key a.length follow) :
    Ok (a.set i x ++ [({} : State)]) (lab ++ [L ++ [x.edge]]) := by
  have hi := (List.getElem?_eq_some_iff.1 h).1
  have hlen := ok.len
  have hlink : x.link = none := by rw [hx]; rfl
  have hnext : x.next = some a.length := by rw [hx]; rfl
  have hnew : (lab ++ [L ++ [x.edge]])[a.length]? = some (L ++ [x.edge]) := by
    rw [List.getElem?_append_right (by omega), ← hlen]
    simp
  have get : ∀ {k : Nat} {y : State}, (a.set i x ++ [({} : State)])[k]? = some y →
      (k = i ∧ y = x) ∨ (k ≠ i ∧ a[k]? = some y) ∨ (k = a.length ∧ y = {}) := by
    intro k y hy
    by_cases hk : k < a.length
    · rw [List.getElem?_append_left (by simpa using hk)] at hy
      by_cases e : k = i
      · subst e
        rw [List.getElem?_set_self hi] at hy
        cases hy
        exact .inl ⟨rfl, rfl⟩
      · rw [List.getElem?_set_ne (fun h => e h.symm)] at hy
        exact .inr (.inl ⟨e, hy⟩)
    · rw [List.getElem?_append_right (by simp; omega)] at hy
      simp only [List.length_set] at hy
      obtain ⟨m, hm⟩ : ∃ m, k - a.length = m := ⟨_, rfl⟩
      rw [hm] at hy
      cases m with
      | zero => simp at hy; exact .inr (.inr ⟨by omega, hy.symm⟩)
      | succ m => simp at hy
  have old : ∀ {k : Nat} {y : State}, k ≠ i → a[k]? = some y → (a.set i x ++ [({} : State)])[k]? = some y := by
    intro k y hk hy
    have := (List.getElem?_eq_some_iff.1 hy).1
    rw [List.getElem?_append_left (by simpa using this), List.getElem?_set_ne (fun h => hk h.symm), hy]
  have self : (a.set i x ++ [({} : State)])[i]? = some x := by
    rw [List.getElem?_append_left (by simpa using hi), List.getElem?_set_self hi]
  have hlk : ∀ {k : Nat} {y : State} {t : Nat}, (a.set i x ++ [({} : State)])[k]? = some y → y.link = some t →
      k ≠ i ∧ a[k]? = some y := by
    intro k y t hy ht
    rcases get hy with ⟨rfl, rfl⟩ | h1 | ⟨-, rfl⟩
    · rw [hlink] at ht; cases ht
    · exact h1
    · cases ht
  have hnx : ∀ {k : Nat} {y : State} {t : Nat}, (a.set i x ++ [({} : State)])[k]? = some y → y.next = some t →
      (k = i ∧ y = x ∧ t = a.length) ∨ (k ≠ i ∧ a[k]? = some y ∧ t < a.length) := by
    intro k y t hy ht
    rcases get hy with ⟨rfl, rfl⟩ | ⟨h1, h2⟩ | ⟨-, rfl⟩
    · rw [hnext] at ht; cases ht; exact .inl ⟨rfl, rfl, rfl⟩
    · exact .inr ⟨h1, h2, (ok.next k y t h2 ht).2.1⟩
    · cases ht
  constructor
  · simp [hlen]
  · intro _
    rw [lab_old (by omega)]
    exact ok.root (by omega)
  · intro s y t hy ht
    obtain ⟨h1, h2⟩ := hlk hy ht
    obtain ⟨h6, h7, h8⟩ := ok.link s y t h2 ht
    exact ⟨h6, by simp; omega, by rw [lab_old (by omega), lab_old (by omega), h8]⟩
  · intro s y t hy ht
    rcases hnx hy ht with ⟨rfl, rfl, rfl⟩ | ⟨h1, h2, h3⟩
    · exact ⟨hi, by simp, L, by rw [lab_old (by omega), hL], hnew⟩
    · obtain ⟨h6, h7, L', h8, h9⟩ := ok.next s y t h2 ht
      exact ⟨h6, by simp; omega, L', by rw [lab_old (by omega), h8], by rw [lab_old (by omega), h9]⟩
  · intro s s' y y' t hy hy' ht ht'
    exact ok.injL s s' y y' t (hlk hy ht).2 (hlk hy' ht').2 ht ht'
  · intro s s' y y' t hy hy' ht ht'
    rcases hnx hy ht with ⟨rfl, rfl, rfl⟩ | ⟨h1, h2, h3⟩
    · rcases hnx hy' ht' with ⟨rfl, rfl, _⟩ | ⟨g1, g2, g3⟩
      · rfl
      · omega
    · rcases hnx hy' ht' with ⟨rfl, rfl, rfl⟩ | ⟨g1, g2, g3⟩
      · omega
      · exact ok.injN s s' y y' t h2 g2 ht ht'
  · intro s s' y y' t hy hy' ht ht'
    have h2 := (hlk hy ht).2
    rcases hnx hy' ht' with ⟨rfl, rfl, rfl⟩ | ⟨g1, g2, g3⟩
    · have := (ok.link s y _ h2 ht).2.1
      omega
    · exact ok.injX s s' y y' t h2 g2 ht ht'
  · intro t ht
    simp only [List.length_append, List.length_set, List.length_singleton] at ht
    by_cases e : t < a.length
    · rcases ok.par t e with h4 | ⟨s, y, h4, h5⟩
      · exact .inl h4
      · refine .inr ⟨s, y, old ?_ h4, h5⟩
        intro e
        subst e
        rw [h] at h4
        cases h4
        rcases h5 with h5 | h5 <;> cases h5
    · have : t = a.length := by omega
      subst this
      exact .inr ⟨i, x, self, .inr hnext⟩
  · intro s y t hy ht
    rcases hnx hy ht with ⟨rfl, rfl, rfl⟩ | ⟨h1, h2, h3⟩
    · rw [hx]; exact ⟨rfl, rfl, op, rfl⟩
    · exact ok.edge s y t h2 ht
  · intro s y hy ht
    rcases get hy with ⟨rfl, rfl⟩ | ⟨h1, h2⟩ | ⟨-, rfl⟩
    · rw [hnext] at ht; cases ht
    · exact ok.plain s y h2 ht
    · rfl

theorem ok_root : Ok [{}] [[]] := by
  have one : ∀ {k : Nat} {x : State}, ([{}] : Atm)[k]? = some x → k = 0 ∧ x = {} := by
    intro k x hx
    cases k with
    | zero => simp at hx; exact ⟨rfl, hx.symm⟩
    | succ k => simp at hx
  constructor
  · rfl
  · intro _; rfl
  · intro s x t hx ht; obtain ⟨-, rfl⟩ := one hx; cases ht
  · intro s x t hx ht; obtain ⟨-, rfl⟩ := one hx; cases ht
  · intro s s' x x' t hx hx' ht _; obtain ⟨-, rfl⟩ := one hx; cases ht
  · intro s s' x x' t hx hx' ht _; obtain ⟨-, rfl⟩ := one hx; cases ht
  · intro s s' x x' t hx hx' ht _; obtain ⟨-, rfl⟩ := one hx; cases ht
  · intro t ht; exact .inl (by simpa using ht)
  · intro s x t hx ht; obtain ⟨-, rfl⟩ := one hx; cases ht
  · intro s x hx _; obtain ⟨-, rfl⟩ := one hx; rfl

theorem ok_nil : Ok [] [] := by
  constructor <;> intros <;> simp_all

/-! ## Outputs -/

/-- The outputs with a type: the steps leading to them and what they are. -/
def outs (a : Atm) (lab : List (List Edge)) (ty : Int) : List (List Edge × Core) :=
  (a.zip lab).filterMap fun x => if x.1.core.typeidx = ty then some (x.2, x.1.core) else none

theorem outs_set {a : Atm} : ∀ {lab : List (List Edge)} {i : Nat} {st x : State} {ty : Int}, a[i]? = some st →
    x.core.typeidx ≠ ty ∧ st.core.typeidx ≠ ty ∨ x.core = st.core →
    outs (a.set i x) lab ty = outs a lab ty := by
  induction a with
  | nil => intro lab i st x ty h; simp at h
  | cons b a ih =>
    intro lab i st x ty h hx
    cases lab with
    | nil => simp [outs]
    | cons L lab =>
      cases i with
      | zero =>
        simp only [List.length_cons, Nat.zero_lt_succ, List.getElem?_eq_getElem, List.getElem_cons_zero,
          Option.some.injEq] at h
        subst h
        simp only [outs, List.set_cons_zero, List.zip_cons_cons, List.filterMap_cons]
        rcases hx with ⟨h1, h2⟩ | hx
        · rw [if_neg h1, if_neg h2]
        · rw [hx]
      | succ i =>
        have h' : a[i]? = some st := by simpa using h
        have := ih (lab := lab) h' hx
        simp only [outs] at this
        simp only [outs, List.set_cons_succ, List.zip_cons_cons, List.filterMap_cons, this]

theorem outs_append {a b : Atm} {lab lab' : List (List Edge)} {ty : Int} (h : lab.length = a.length) :
    outs (a ++ b) (lab ++ lab') ty = outs a lab ty ++ outs b lab' ty := by
  unfold outs
  rw [List.zip_append (by omega), List.filterMap_append]

/-- An output that is reported with the last step has no use for a range. -/
def bareOut (o : List Edge × Core) : List Edge × Core := (o.1, if o.2.mask = {} then { o.2 with cntStart := 0, cntEnd := -1 } else o.2)

theorem bareOut_fst (o : List Edge × Core) : (bareOut o).1 = o.1 := rfl

theorem bareOut_mask (o : List Edge × Core) : (bareOut o).2.mask = o.2.mask := by
  unfold bareOut
  split <;> rfl

theorem bareOut_follow (o : List Edge × Core) : (bareOut o).2.follow = o.2.follow := by
  unfold bareOut
  split <;> rfl

/-- No step with an empty name; there may be steps with an empty value, if `E`. -/
def NoEmpty (E : Prop) (a : Atm) : Prop :=
  ∀ (s : Nat) (st : State), a[s]? = some st → st.key = some [] → E ∧ st.core.mask = ({} : Mask).seekop .ThisAttributeValue

/-- An empty key is allowed for values, if `E`; then no value may be without a key. -/
def KeyFits (E : Prop) (op : Op) : Option (List Byte) → Prop
  | none => ¬ (E ∧ op = .ThisAttributeValue)
  | some k => k = [] → E ∧ op = .ThisAttributeValue

theorem seekop_value {op : Op} (h : ({} : Mask).seekop op = ({} : Mask).seekop .ThisAttributeValue) : op = .ThisAttributeValue := by
  cases op <;> first | rfl | exact absurd h (by decide)

variable {E : Prop}

theorem NoEmpty.grow {a : Atm} (h : NoEmpty E a) {l : Nat} {st : State} {new : List State} (hl : a[l]? = some st)
    (hn : ∀ x ∈ new, x.key = some [] → E ∧ x.core.mask = ({} : Mask).seekop .ThisAttributeValue) : NoEmpty E (grow a l st new) := by
  intro s x hx
  rcases grow_get hl hx with ⟨rfl, rfl⟩ | ⟨-, h1⟩ | ⟨-, h1⟩
  · exact h _ st hl
  · exact h s x h1
  · exact hn x (List.mem_of_getElem? h1)

theorem seek_mask (op : Op) : (({} : Mask).seekop op).empty = false := by cases op <;> decide

theorem grow_set {a : Atm} {l : Nat} {st x : State} : (grow a l st [{}]).set a.length x = grow a l st [x] := by
  unfold Path.grow
  rw [List.set_append_right _ _ (by simp)]
  simp

theorem grow_append {a : Atm} {l : Nat} {st : State} {x y : List State} : grow a l st x ++ y = grow a l st (x ++ y) := by
  unfold Path.grow
  simp

/-- Defining a step. -/
theorem defineNext_spec {a : Atm} {lab : List (List Edge)} (ok : Ok a lab) (ne : NoEmpty E a) {i : Nat} {L : List Edge}
    (hi : lab[i]? = some L) (op : Op) {key : Option (List Byte)} (hk : KeyFits E op key) (follow : Bool) :
    ∃ j a' x, Atm.defineNext i op key follow a = (.ok j, a') ∧ Ok a' (lab ++ x) ∧ NoEmpty E a' ∧
      (lab ++ x)[j]? = some (L ++ [⟨({} : Mask).seekop op, key, follow⟩]) ∧
      ∀ ty, ty ≠ 0 → outs a' (lab ++ x) ty = outs a lab ty := by
  have hia : i < a.length := by rw [← ok.len]; exact (List.getElem?_eq_some_iff.1 hi).1
  obtain ⟨ch, c, hle, hnd, hlen⟩ := ok.chain hia
  have hpos : a.length ≠ 0 := by omega
  unfold Atm.defineNext
  rw [M.bind_ok (M.get_run _), if_neg hpos, M.bind_ok (M.pure_run _ _)]
  simp only []
  rw [M.bind_ok (M.get_run _)]
  rcases seekStep_run ok.plain (({} : Mask).seekop op) (key.getD []) follow c (a.length + 1) (by omega) with
    ⟨j, ee, st, h1, h2, h3, h4, h5, h6, h7⟩ | ⟨ee, st, h1, h2, h3, h4⟩
  · rw [M.bind_ok h1]
    obtain ⟨i', e1, e2⟩ := ok.chain_lab c ee h2
    cases e1
    obtain ⟨-, -, L', h8, h9⟩ := ok.next ee st j h3 h7
    rw [e2, hi] at h8
    cases h8
    refine ⟨j, a, [], rfl, by simpa using ok, ne, ?_, by simp⟩
    have : st.edge = ⟨({} : Mask).seekop op, key, follow⟩ := by
      unfold State.edge
      rw [← h6, h5]
      cases key with
      | none =>
        obtain ⟨m1, m2⟩ := ne ee st h3 h4
        exact (hk ⟨m1, seekop_value (h6.trans m2)⟩).elim
      | some k => rw [h4]; rfl
    rw [List.append_nil, h9, this]
  · rw [M.bind_ok h1]
    obtain ⟨i', e1, e2⟩ := ok.chain_lab c ee h2
    cases e1
    have hel := (List.getElem?_eq_some_iff.1 h3).1
    obtain ⟨l, st', g1, g2, g3, g4⟩ := freeState_run ok hel
    have hL : lab[l]? = some L := by rw [g4, e2, hi]
    have ok1 : Ok (grow a l st' [{}]) (lab ++ [L]) := ok.output g2 g3 hL rfl rfl rfl
    have hge : (grow a l st' [{}])[a.length]? = some {} := by
      have := grow_new (a := a) (l := l) (st := st') (new := [{}]) (k := 0)
      simpa using this
    have hLn : (lab ++ [L])[a.length]? = some L := by
      rw [List.getElem?_append_right (by have := ok.len; omega), ← ok.len]
      simp
    have hgl : (grow a l st' [{}]).length = a.length + 1 := grow_length
    have ok2 := ok1.transition (op := op) (key := key) (follow := follow) hge hLn rfl
    rw [grow_set, grow_append, hgl] at ok2
    generalize hx : ({} : State).defineNext op key (a.length + 1) follow = x at ok2
    have hxe : x.edge = ⟨({} : Mask).seekop op, key, follow⟩ := by rw [← hx]; rfl
    have hxk : x.key = key := by rw [← hx]; rfl
    have hxt : x.core.typeidx = 0 := by rw [← hx]; rfl
    rw [hxe, List.append_assoc] at ok2
    refine ⟨a.length + 1, grow a l st' [x, {}], _, ?_, ok2, ?_, ?_, ?_⟩
    · show (Atm.freeState ee >>= fun i => _) a = _
      rw [M.bind_ok g1]
      have hp : Atm.push {} (grow a l st' [{}]) = (.ok (), grow a l st' [{}, {}]) := by
        show (Res.ok (), grow a l st' [{}] ++ [({} : State)]) = _
        rw [grow_append]; rfl
      rw [M.bind_ok hp, M.bind_ok (M.get_run _)]
      have hg2 : (grow a l st' [{}, {}])[a.length]? = some {} := by
        have := grow_new (a := a) (l := l) (st := st') (new := [{}, {}]) (k := 0)
        simpa using this
      have hgl2 : (grow a l st' [{}, {}]).length - 1 = a.length + 1 := by rw [grow_length]; rfl
      rw [hgl2, M.bind_ok (change_run hg2), hx]
      have : (grow a l st' [{}, {}]).set a.length x = grow a l st' [x, {}] := by
        unfold Path.grow
        rw [List.set_append_right _ _ (by simp)]
        simp
      rw [this]
      rfl
    · refine ne.grow g2 ?_
      intro y hy
      simp only [List.mem_cons, List.not_mem_nil, or_false] at hy
      rcases hy with rfl | rfl
      · rw [hxk]
        rintro rfl
        obtain ⟨m1, rfl⟩ := hk rfl
        exact ⟨m1, congrArg Edge.mask hxe⟩
      · exact fun h => nomatch h
    · rw [List.getElem?_append_right (by have := ok.len; omega), ok.len]
      simp
    · intro ty hty
      unfold Path.grow
      rw [outs_append (by simpa using ok.len), outs_set (x := { st' with link := some a.length }) g2 (.inr rfl)]
      have : outs [x, {}] [L, L ++ [⟨({} : Mask).seekop op, key, follow⟩]] ty = [] := by
        unfold outs
        have h0 : ¬ (0 : Int) = ty := fun h => hty h.symm
        simp [hxt, h0]
      show outs a lab ty ++ outs [x, {}] [L, L ++ [_]] ty = _
      rw [this, List.append_nil]

/-- Defining an output. -/
theorem defineOutput_spec {a : Atm} {lab : List (List Edge)} (ok : Ok a lab) (ne : NoEmpty E a) {i : Nat} {L : List Edge}
    (hi : lab[i]? = some L) (mask : Mask) (typeidx : Int) (follow : Bool) (start stop : Int) :
    ∃ j a' x, Atm.defineOutput i mask typeidx follow start stop a = (.ok j, a') ∧ Ok a' (lab ++ x) ∧ NoEmpty E a' ∧
      (lab ++ x)[j]? = some L ∧
      ∀ ty, outs a' (lab ++ x) ty = outs a lab ty ++ if typeidx = ty then [(L, { mask, typeidx, follow, cntStart := start, cntEnd := stop })] else [] := by
  have hia : i < a.length := by rw [← ok.len]; exact (List.getElem?_eq_some_iff.1 hi).1
  have hpos : a.length ≠ 0 := by omega
  obtain ⟨l, st, g1, g2, g3, g4⟩ := freeState_run ok hia
  have hL : lab[l]? = some L := by rw [g4, hi]
  unfold Atm.defineOutput
  rw [M.bind_ok (M.get_run _), if_neg hpos, M.bind_ok (M.pure_run _ _)]
  simp only []
  rw [M.bind_ok (M.get_run _), if_neg (by omega), M.bind_ok g1]
  have hge : (grow a l st [{}])[a.length]? = some {} := by
    have := grow_new (a := a) (l := l) (st := st) (new := [{}]) (k := 0)
    simpa using this
  rw [M.bind_ok (change_run hge), grow_set]
  refine ⟨a.length, _, [L], rfl, ok.output g2 g3 hL rfl rfl rfl, ?_, ?_, ?_⟩
  · refine ne.grow g2 ?_
    intro y hy
    simp only [List.mem_cons, List.not_mem_nil, or_false] at hy
    subst hy
    exact fun h => nomatch h
  · rw [List.getElem?_append_right (by have := ok.len; omega), ok.len]
    simp
  · intro ty
    unfold Path.grow
    rw [outs_append (by simpa using ok.len), outs_set (x := { st with link := some a.length }) g2 (.inr rfl)]
    congr 1
    unfold outs
    simp only [List.zip_cons_cons, List.zip_nil_right, List.filterMap_cons, List.filterMap_nil, State.defineOutput]
    by_cases h : typeidx = ty
    · rw [if_pos h, if_pos h]
    · rw [if_neg h, if_neg h]

/-! ## Cascades -/

/-- A path element of an automaton, with the steps leading to it. `E` allows empty values. -/
structure At (E : Prop) (a : Atm) (lab : List (List Edge)) (p : PElem) (L : List Edge) : Prop where
  ok : Ok a lab
  ne : NoEmpty E a
  pos : (a = [] ∧ lab = [] ∧ L = [] ∧ p.stateidx = 0) ∨ lab[p.stateidx]? = some L

/-- All path elements stay where they are. -/
def Keeps (E : Prop) (a : Atm) (lab : List (List Edge)) (a' : Atm) (lab' : List (List Edge)) : Prop :=
  ∀ q L, At E a lab q L → At E a' lab' q L

theorem Keeps.refl (a : Atm) (lab : List (List Edge)) : Keeps E a lab a lab := fun _ _ h => h

theorem Keeps.trans {a a' a'' : Atm} {lab lab' lab'' : List (List Edge)} (h : Keeps E a lab a' lab') (h' : Keeps E a' lab' a'' lab'') :
    Keeps E a lab a'' lab'' := fun q L k => h' q L (h q L k)

theorem keeps_append {a a' : Atm} {lab x : List (List Edge)} (h1 : Ok a' (lab ++ x)) (h2 : NoEmpty E a') {i : Nat} {L : List Edge}
    (hi : lab[i]? = some L) : Keeps E a lab a' (lab ++ x) := by
  intro q L' k
  refine ⟨h1, h2, .inr ?_⟩
  rcases k.pos with ⟨-, rfl, -⟩ | k
  · cases hi
  · rw [List.getElem?_append_left (List.getElem?_eq_some_iff.1 k).1]
    exact k

theorem keeps_root {a' : Atm} {x : List (List Edge)} (h1 : Ok a' ([[]] ++ x)) (h2 : NoEmpty E a') : Keeps E [] [] a' ([[]] ++ x) := by
  intro q L' k
  refine ⟨h1, h2, .inr ?_⟩
  rcases k.pos with ⟨-, -, rfl, k'⟩ | k'
  · rw [k']; rfl
  · cases k'

theorem defineNext_nil (i : Nat) (op : Op) (key : Option (List Byte)) (follow : Bool) :
    Atm.defineNext i op key follow [] = Atm.defineNext 0 op key follow [{}] := rfl

theorem defineOutput_nil (i : Nat) (mask : Mask) (ty : Int) (follow : Bool) (s t : Int) :
    Atm.defineOutput i mask ty follow s t [] = Atm.defineOutput 0 mask ty follow s t [{}] := rfl

theorem noEmpty_root : NoEmpty E [{}] := by
  intro s st h
  cases s with
  | zero => simp at h; subst h; exact fun h => nomatch h
  | succ s => simp at h

/-- One step with a path element. -/
theorem At.select_keep {a : Atm} {lab : List (List Edge)} {p : PElem} {L : List Edge} (h : At E a lab p L) (op : Op)
    {key : Option (List Byte)} (hk : KeyFits E op key) :
    ∃ j a' lab', p.select op key a = (.ok { p with stateidx := j, follow := false }, a') ∧
      At E a' lab' { p with stateidx := j, follow := false } (L ++ [⟨({} : Mask).seekop op, key, p.follow⟩]) ∧
      (∀ ty, ty ≠ 0 → outs a' lab' ty = outs a lab ty) ∧ Keeps E a lab a' lab' := by
  unfold PElem.select
  rcases h.pos with ⟨rfl, rfl, rfl, -⟩ | hp
  · obtain ⟨j, a', x, h1, h2, h3, h4, h5⟩ := defineNext_spec ok_root noEmpty_root (i := 0) (L := []) rfl op hk p.follow
    refine ⟨j, a', _, ?_, ⟨h2, h3, .inr h4⟩, ?_, keeps_root h2 h3⟩
    · rw [M.bind_ok ((defineNext_nil ..).trans h1)]; rfl
    · intro ty hty
      rw [h5 ty hty]
      have : ¬ (0 : Int) = ty := fun h => hty h.symm
      simp [outs, this]
  · obtain ⟨j, a', x, h1, h2, h3, h4, h5⟩ := defineNext_spec h.ok h.ne hp op hk p.follow
    refine ⟨j, a', _, ?_, ⟨h2, h3, .inr h4⟩, h5, keeps_append h2 h3 hp⟩
    rw [M.bind_ok h1]; rfl

theorem At.select {a : Atm} {lab : List (List Edge)} {p : PElem} {L : List Edge} (h : At E a lab p L) (op : Op)
    {key : Option (List Byte)} (hk : KeyFits E op key) :
    ∃ j a' lab', p.select op key a = (.ok { p with stateidx := j, follow := false }, a') ∧
      At E a' lab' { p with stateidx := j, follow := false } (L ++ [⟨({} : Mask).seekop op, key, p.follow⟩]) ∧
      ∀ ty, ty ≠ 0 → outs a' lab' ty = outs a lab ty := by
  obtain ⟨j, a', lab', h1, h2, h3, -⟩ := h.select_keep op hk
  exact ⟨j, a', lab', h1, h2, h3⟩

/-- The output of a path element. -/
def PElem.out (p : PElem) (type : Int) : Core :=
  { mask := p.print, typeidx := type, follow := p.follow, cntStart := p.start, cntEnd := p.stop }

/-- Assigning a type. -/
theorem At.push_keep {a : Atm} {lab : List (List Edge)} {p : PElem} {L : List Edge} (h : At E a lab p L) (type : Int) :
    ∃ j a' lab', p.push type a = (.ok { p with stateidx := j }, a') ∧ At E a' lab' { p with stateidx := j } L ∧
      (∀ ty, ty ≠ 0 → outs a' lab' ty = outs a lab ty ++ if type = ty then [(L, p.out type)] else []) ∧ Keeps E a lab a' lab' := by
  unfold PElem.push
  rcases h.pos with ⟨rfl, rfl, rfl, -⟩ | hp
  · obtain ⟨j, a', x, h1, h2, h3, h4, h5⟩ := defineOutput_spec ok_root noEmpty_root (i := 0) (L := []) rfl p.print type
      p.follow p.start p.stop
    refine ⟨j, a', _, ?_, ⟨h2, h3, .inr h4⟩, ?_, keeps_root h2 h3⟩
    · rw [M.bind_ok ((defineOutput_nil ..).trans h1)]; rfl
    · intro ty hty
      rw [h5 ty]
      have : ¬ (0 : Int) = ty := fun h => hty h.symm
      simp [outs, this, PElem.out]
  · obtain ⟨j, a', x, h1, h2, h3, h4, h5⟩ := defineOutput_spec h.ok h.ne hp p.print type p.follow p.start p.stop
    refine ⟨j, a', _, ?_, ⟨h2, h3, .inr h4⟩, fun ty _ => h5 ty, keeps_append h2 h3 hp⟩
    rw [M.bind_ok h1]; rfl

theorem At.push {a : Atm} {lab : List (List Edge)} {p : PElem} {L : List Edge} (h : At E a lab p L) (type : Int) :
    ∃ j a' lab', p.push type a = (.ok { p with stateidx := j }, a') ∧ At E a' lab' { p with stateidx := j } L ∧
      ∀ ty, ty ≠ 0 → outs a' lab' ty = outs a lab ty ++ if type = ty then [(L, p.out type)] else [] := by
  obtain ⟨j, a', lab', h1, h2, h3, -⟩ := h.push_keep type
  exact ⟨j, a', lab', h1, h2, h3⟩

theorem At.of {a : Atm} {lab : List (List Edge)} {p q : PElem} {L : List Edge} (h : At E a lab p L)
    (e : q.stateidx = p.stateidx) : At E a lab q L :=
  ⟨h.ok, h.ne, by rw [e]; exact h.pos⟩

end TW.Path
