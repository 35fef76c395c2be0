import Verif.Proofs.PathGrow

/-!
# The counters of the tokens of a selector
-/

namespace TW.Path

/-- What has been used of a range: `o` is what the state says, `c` what is left of it. -/
structure Spent (o c : Core) : Prop where
  type : c.typeidx = o.typeidx
  follow : c.follow = o.follow
  mask : c.mask = o.mask ∨ c.mask = {}
  free : o.cntEnd ≤ 0 → c.cntEnd = o.cntEnd
  down : 0 < o.cntEnd → 0 ≤ c.cntEnd ∧ c.cntEnd ≤ o.cntEnd ∧ (c.cntEnd = 0 → c.mask = {})
  skip : o.cntStart - c.cntStart = min (max o.cntStart 0) (o.cntEnd - c.cntEnd)

theorem Spent.refl (o : Core) : Spent o o :=
  ⟨rfl, rfl, .inl rfl, fun _ => rfl, fun _ => ⟨by omega, by omega, fun _ => by omega⟩, by omega⟩

/-- One element of the range has been seen. -/
theorem Spent.count {o c : Core} (h : Spent o c) (hp : 0 < c.cntEnd) : (c.cntStart ≤ 0 → Spent o (Sel.count c)) ∧
    (0 < c.cntStart → Spent o { Sel.count c with cntStart := (Sel.count c).cntStart - 1 }) := by
  obtain ⟨h1, h2, h3, h4, h5, h6⟩ := h
  have ho : 0 < o.cntEnd := by
    rcases Int.lt_or_le 0 o.cntEnd with k | k
    · exact k
    · have := h4 k
      omega
  have k5 := h5 ho
  have hm : (if c.cntEnd - 1 = 0 then ({} : Mask) else c.mask) = o.mask ∨ (if c.cntEnd - 1 = 0 then ({} : Mask) else c.mask) = {} := by
    split
    · exact .inr rfl
    · exact h3
  have hz : c.cntEnd - 1 = 0 → (if c.cntEnd - 1 = 0 then ({} : Mask) else c.mask) = {} := fun k => if_pos k
  unfold Sel.count
  exact ⟨fun hs => ⟨h1, h2, hm, fun k => by omega, fun _ => ⟨by show 0 ≤ c.cntEnd - 1; omega, by show c.cntEnd - 1 ≤ _; omega, hz⟩, by
      show o.cntStart - c.cntStart = min (max o.cntStart 0) (o.cntEnd - (c.cntEnd - 1))
      omega⟩,
    fun hs => ⟨h1, h2, hm, fun k => by omega, fun _ => ⟨by show 0 ≤ c.cntEnd - 1; omega, by show c.cntEnd - 1 ≤ _; omega, hz⟩, by
      show o.cntStart - (c.cntStart - 1) = min (max o.cntStart 0) (o.cntEnd - (c.cntEnd - 1))
      omega⟩⟩

theorem Spent.off {o c : Core} (h : Spent o c) : Spent o { c with mask := {} } :=
  ⟨h.type, h.follow, .inr rfl, h.free, fun k => ⟨(h.down k).1, (h.down k).2.1, fun _ => rfl⟩, h.skip⟩

/-- All tokens are those of states, partly used. -/
def AllSpent (a : Atm) (s : Sel) : Prop := s.atm = a ∧ ∀ t ∈ s.tokens, ∃ st, a[t.stateidx]? = some st ∧ Spent st.core t.core

/-- A function keeps this. -/
def Holds {α : Type} (a : Atm) (x : M Sel α) : Prop := ∀ s, AllSpent a s → AllSpent a (x s).2

variable {a : Atm}

theorem Holds.pure {α : Type} (v : α) : Holds a (pure v : M Sel α) := fun _ h => h

theorem Holds.stop {α : Type} (er : Stop) : Holds a (M.stop er : M Sel α) := fun _ h => h

theorem Holds.bind {α β : Type} {x : M Sel α} {f : α → M Sel β} (h : Holds a x) (k : ∀ v, Holds a (f v)) : Holds a (x >>= f) := by
  intro s hs
  rcases hy : x s with ⟨r, s1⟩
  have h1 := h s hs
  rw [hy] at h1
  cases r with
  | stop er =>
    rw [M.bind_stop hy]
    exact h1
  | ok v =>
    rw [M.bind_ok hy]
    exact k v s1 h1

theorem Holds.modify {f : Sel → Sel} (h : ∀ s, AllSpent a s → AllSpent a (f s)) : Holds a (M.modify f) := fun s hs => h s hs

theorem Holds.get {α : Type} {f : Sel → M Sel α} (h : ∀ s, AllSpent a s → AllSpent a (f s s).2) : Holds a (M.get >>= f) := by
  intro s hs
  rw [M.bind_ok (M.get_run _)]
  exact h s hs

theorem Holds.ite {α : Type} {c : Prop} [Decidable c] {x y : M Sel α} (h : Holds a x) (k : Holds a y) : Holds a (if c then x else y) := by
  split
  · exact h
  · exact k

theorem stateAt_holds (i : Nat) : Holds a (Sel.stateAt i) := by
  intro s hs
  unfold Sel.stateAt
  split <;> exact hs

theorem tokenAt_holds (i : Nat) : Holds a (Sel.tokenAt i) := by
  intro s hs
  unfold Sel.tokenAt
  split <;> exact hs

theorem expand_holds : ∀ (n : Nat) (o : Option Nat), Holds a (Sel.expand n o)
  | 0, none => .pure ()
  | _ + 1, none => .pure ()
  | 0, some i => .stop _
  | n + 1, some i => by
    intro s hs
    unfold Sel.expand
    cases hi : s.atm[i]? with
    | none =>
      rw [M.bind_stop (show Sel.stateAt i s = (.stop .ub, s) by unfold Sel.stateAt; rw [hi])]
      exact hs
    | some st =>
      rw [M.bind_ok (show Sel.stateAt i s = (.ok st, s) by unfold Sel.stateAt; rw [hi]), M.bind_ok (M.modify_run _ _)]
      refine expand_holds n st.link _ ?_
      have push : ∀ x ∈ s.tokens ++ [({ core := st.core, stateidx := i } : Token)], ∃ st', a[x.stateidx]? = some st' ∧ Spent st'.core x.core := by
        intro x hx
        rcases List.mem_append.1 hx with hx | hx
        · exact hs.2 x hx
        · cases List.mem_singleton.1 hx
          exact ⟨st, by rw [← hs.1]; exact hi, .refl _⟩
      unfold Sel.activate
      by_cases h1 : st.core.mask.empty ∧ st.core.typeidx ≠ 0
      · simp only [if_pos h1]
        exact hs
      · simp only [if_neg h1]
        by_cases h2 : st.core.follow = true
        · simp only [if_pos h2]
          exact ⟨hs.1, push⟩
        · simp only [if_neg h2]
          exact ⟨hs.1, push⟩

theorem set_spent {s : Sel} (hs : AllSpent a s) {i : Nat} {x : Token} (hx : s.tokens[i]? = some x) {c : Core} (hc : ∀ o, Spent o x.core → Spent o c) :
    AllSpent a { s with tokens := s.tokens.set i { x with core := c } } := by
  refine ⟨hs.1, fun t ht => ?_⟩
  rcases List.mem_or_eq_of_mem_set ht with ht | rfl
  · exact hs.2 t ht
  · obtain ⟨st, h1, h2⟩ := hs.2 x (List.mem_of_getElem? hx)
    exact ⟨st, h1, hc _ h2⟩

theorem change_one {s : Sel} {i : Nat} {x : Token} (hx : s.tokens[i]? = some x) (f : Core → Core) :
    Sel.change i f s = (.ok (), { s with tokens := s.tokens.set i { x with core := f x.core } }) := by
  unfold Sel.change
  rw [hx]

/-- Both counters are changed. -/
theorem change_twice {s : Sel} {i : Nat} {x : Token} (hx : s.tokens[i]? = some x) (f g : Core → Core) :
    Sel.change i g { s with tokens := s.tokens.set i { x with core := f x.core } } =
      (.ok (), { s with tokens := s.tokens.set i { x with core := g (f x.core) } }) := by
  have h1 : (s.tokens.set i { x with core := f x.core })[i]? = some { x with core := f x.core } := List.getElem?_set_self (lt_of_get hx)
  refine (change_one (s := { s with tokens := s.tokens.set i { x with core := f x.core } }) h1 g).trans ?_
  simp only [List.set_set]

theorem produce_holds (i : Nat) (st : State) : Holds a (Sel.produce i st) := by
  intro s hs
  unfold Sel.produce
  rw [M.bind_ok (M.get_run _)]
  cases hx : s.tokens[i]? with
  | none =>
    rw [M.bind_stop (show Sel.tokenAt i s = (.stop .ub, s) by unfold Sel.tokenAt; rw [hx])]
    exact hs
  | some x =>
    rw [M.bind_ok (show Sel.tokenAt i s = (.ok x, s) by unfold Sel.tokenAt; rw [hx])]
    by_cases c1 : x.core.cntEnd = -1
    · rw [if_pos c1]
      exact expand_holds _ _ s hs
    · rw [if_neg c1]
      by_cases c2 : 0 < x.core.cntEnd
      · rw [if_pos c2, M.bind_ok (change_one hx _)]
        by_cases c3 : x.core.cntStart ≤ 0
        · rw [if_pos c3]
          exact expand_holds _ _ _ (set_spent hs hx fun o ho => (ho.count c2).1 c3)
        · rw [if_neg c3, change_twice hx]
          exact set_spent hs hx fun o ho => (ho.count c2).2 (by omega)
      · rw [if_neg c2]
        exact hs

theorem emit_holds (i : Nat) : Holds a (Sel.emit i) := by
  intro s hs
  unfold Sel.emit
  cases hx : s.tokens[i]? with
  | none =>
    rw [M.bind_stop (show Sel.tokenAt i s = (.stop .ub, s) by unfold Sel.tokenAt; rw [hx])]
    exact hs
  | some x =>
    rw [M.bind_ok (show Sel.tokenAt i s = (.ok x, s) by unfold Sel.tokenAt; rw [hx])]
    by_cases c0 : x.core.typeidx ≠ 0
    · rw [if_pos c0]
      by_cases c1 : x.core.cntEnd = -1
      · rw [if_pos c1]
        exact hs
      · rw [if_neg c1]
        by_cases c2 : 0 < x.core.cntEnd
        · rw [if_pos c2, M.bind_ok (change_one hx _)]
          by_cases c3 : x.core.cntStart ≤ 0
          · rw [if_pos c3]
            exact set_spent hs hx fun o ho => (ho.count c2).1 c3
          · rw [if_neg c3, M.bind_ok (change_twice hx _ _)]
            exact set_spent hs hx fun o ho => (ho.count c2).2 (by omega)
        · rw [if_neg c2]
          exact hs
    · rw [if_neg c0]
      exact hs

theorem fire_holds (i : Nat) (type : ElementType) (key : List Byte) : Holds a (Sel.fire i type key) := by
  unfold Sel.fire
  refine (tokenAt_holds i).bind fun tk => .ite ((stateAt_holds _).bind fun st => .bind ?_ fun _ => emit_holds i) (.pure _)
  unfold Sel.follow
  cases st.key with
  | none => exact produce_holds i st
  | some k => exact .ite (produce_holds i st) (.pure _)

theorem giveUp_holds (i : Nat) (type : ElementType) : Holds a (Sel.giveUp i type) := by
  unfold Sel.giveUp
  refine (tokenAt_holds i).bind fun tk => .ite ?_ (.pure _)
  intro s hs
  cases hx : s.tokens[i]? with
  | none =>
    unfold Sel.change
    rw [hx]
    exact hs
  | some x =>
    rw [change_one hx]
    exact set_spent hs hx fun o ho => ho.off

theorem match_holds (i : Nat) : Holds a (Sel.matchToken i) := by
  unfold Sel.matchToken
  refine .get fun s hs => ?_
  cases s.key with
  | none => exact hs
  | some key => exact (Holds.ite (.pure _) ((fire_holds i s.type key).bind fun rt => (giveUp_holds i s.type).bind fun _ => .pure _)) s hs

theorem loop_holds : ∀ n, Holds a (Sel.fetchLoop n)
  | 0 => .stop _
  | n + 1 => by
    intro s hs
    rw [loop_succ]
    have visit : ∀ i, Holds a (do
        let type ← Sel.matchToken i
        M.modify fun s => { s with iter := s.iter + 1 }
        if type = 0 then Sel.fetchLoop n else pure type : M Sel Int) :=
      fun i => (match_holds i).bind fun type => (Holds.modify (f := fun s => { s with iter := s.iter + 1 }) fun s hs => hs).bind fun _ => .ite (loop_holds n) (.pure _)
    have rest : Holds a (match s.triggers with
        | t :: ts => do
          M.modify fun s => { s with triggers := ts }
          if t = 0 then Sel.fetchLoop n else pure t
        | [] => do
          M.modify fun s => { s with key := none }
          pure 0 : M Sel Int) := by
      cases s.triggers with
      | nil => exact (Holds.modify (f := fun s => { s with key := none }) fun s hs => hs).bind fun _ => .pure _
      | cons x ts => exact (Holds.modify (f := fun s => { s with triggers := ts }) fun s hs => hs).bind fun _ => .ite (loop_holds n) (.pure _)
    refine (Holds.ite (visit _) (.ite ?_ rest)) s hs
    split
    · exact .ite (visit _) rest
    · exact .stop _

theorem fetch_holds (n : Nat) : Holds a (Sel.fetch n) := by
  unfold Sel.fetch
  exact .get fun s hs => (Holds.ite (loop_holds n) ((Holds.modify (f := fun s => { s with key := none }) fun s hs => hs).bind fun _ => .pure _)) s hs

theorem init_spent {s : Sel} (hs : AllSpent a s) (type : ElementType) (key : List Byte) : AllSpent a (Sel.initElement type key s) := by
  unfold Sel.initElement
  by_cases ht : type = .OpenTag
  · simp only [if_pos ht]
    exact hs
  · simp only [if_neg ht]
    exact hs

theorem close_spent {s : Sel} (h : Sound a s) (hs : AllSpent a s) : AllSpent a (Sel.closeElement s) := by
  unfold Sel.closeElement
  by_cases ht : s.type = .CloseTag ∨ s.type = .CloseTagIm
  · rw [if_pos ht]
    cases hk : s.scopestk with
    | nil => exact hs
    | cons sc stk =>
      have hv := h.levels
      rw [hk] at hv
      refine ⟨hs.1, fun t ht => ?_⟩
      rcases List.mem_append.1 ht with ht | ht
      · exact hs.2 t (List.mem_of_mem_take ht)
      · rw [Nat.sub_eq_zero_of_le hv.1] at ht
        cases ht
  · rw [if_neg ht]
    exact hs

theorem mk_spent {s : Sel} (h : Sel.mk' a = .ok s) : AllSpent a s := by
  unfold Sel.mk' at h
  have k := expand_holds (a := a) (a.length + 1) (if 0 < a.length then some 0 else none) { atm := a } ⟨rfl, fun _ h => nomatch h⟩
  split at h
  · next hx =>
    cases h
    rw [hx] at k
    exact k
  · cases h

end TW.Path
