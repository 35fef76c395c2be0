import Verif.Proofs.PathKeep

/-!
# Selectors that differ only in the masks of their scopes
-/

namespace TW.Path

/-- The mask waiting also for open tags. -/
def Mask.open' (m : Mask) : Mask := m.seekop .OpenTag

theorem Mask.ext {m o : Mask} (h : m.pos = o.pos) (k : m.neg = o.neg) : m = o := by
  cases m; cases o; cases h; cases k; rfl

theorem or_swap {b c : Nat} (a x : Nat) : (a ||| b ||| c ||| x) ||| b ||| c = (a ||| x) ||| b ||| c := by
  apply Nat.eq_of_testBit_eq
  intro i
  simp only [Nat.testBit_or]
  cases a.testBit i <;> cases x.testBit i <;> cases b.testBit i <;> cases c.testBit i <;> rfl

theorem or_idem {b c : Nat} (a : Nat) : (a ||| b ||| c) ||| b ||| c = a ||| b ||| c := by
  apply Nat.eq_of_testBit_eq
  intro i
  simp only [Nat.testBit_or]
  cases a.testBit i <;> cases b.testBit i <;> cases c.testBit i <;> rfl

theorem or_left {b c : Nat} (a : Nat) : (a ||| b ||| c ||| b) ||| b ||| c = (a ||| b) ||| b ||| c := by
  apply Nat.eq_of_testBit_eq
  intro i
  simp only [Nat.testBit_or]
  cases a.testBit i <;> cases b.testBit i <;> cases c.testBit i <;> rfl

theorem Mask.open_join (m x : Mask) : (m.open'.join x).open' = (m.join x).open' :=
  Mask.ext (or_swap m.pos x.pos) rfl

theorem Mask.open_idem (m : Mask) : m.open'.open' = m.open' := Mask.ext (or_idem m.pos) rfl

theorem Mask.open_match (m : Mask) : (m.open'.match .OpenTag).open' = (m.match .OpenTag).open' :=
  Mask.ext (or_left m.pos) rfl

theorem bit_ne {a b : ElementType} (h : a ≠ b) : (1 <<< b.toNat : Nat).testBit a.toNat = false := by
  cases a <;> cases b <;> first | exact (h rfl).elim | decide

theorem Mask.open_matches (m : Mask) {t : ElementType} (h1 : t ≠ .OpenTag) (h2 : t ≠ .HeaderStart) :
    m.open'.matches t = m.matches t := by
  show (m.pos ||| 1 <<< ElementType.OpenTag.toNat ||| 1 <<< ElementType.HeaderStart.toNat).testBit t.toNat = _
  rw [Nat.testBit_or, Nat.testBit_or, bit_ne h1, bit_ne h2]
  simp [Mask.matches]

namespace Sel

def _root_.TW.Path.Scope.open' (sc : Scope) : Scope := { sc with mask := sc.mask.open', followMask := sc.followMask.open' }

/-- The selector where all scopes wait for open tags. -/
def opened (s : Sel) : Sel := { s with scope := s.scope.open', scopestk := s.scopestk.map Scope.open' }

theorem scope_idem (sc : Scope) : sc.open'.open' = sc.open' := by
  unfold Scope.open'
  simp only [Mask.open_idem]

theorem opened_idem (s : Sel) : s.opened.opened = s.opened := by
  unfold opened
  simp only [scope_idem, List.map_map]
  congr 1
  apply List.map_congr_left
  intro sc _
  exact scope_idem sc

/-- An operation that does not look at the masks of the scopes. -/
def Blind {α : Type} (f : M Sel α) : Prop := ∀ s, (f s).1 = (f s.opened).1 ∧ (f s).2.opened = (f s.opened).2.opened

theorem Blind.pure {α : Type} (a : α) : Blind (pure a : M Sel α) := fun s => ⟨rfl, (opened_idem s).symm⟩

theorem Blind.stop {α : Type} (e : Stop) : Blind (M.stop e : M Sel α) := fun s => ⟨rfl, (opened_idem s).symm⟩

theorem Blind.apply {α : Type} {f : M Sel α} (h : Blind f) {s c : Sel} (k : s.opened = c.opened) :
    (f s).1 = (f c).1 ∧ (f s).2.opened = (f c).2.opened := by
  obtain ⟨h1, h2⟩ := h s
  obtain ⟨h3, h4⟩ := h c
  rw [h1, h2, h3, h4, k]
  exact ⟨rfl, rfl⟩

theorem Blind.bind {α β : Type} {f : M Sel α} {g : α → M Sel β} (h : Blind f) (k : ∀ a, Blind (g a)) : Blind (f >>= g) := by
  intro s
  obtain ⟨h1, h2⟩ := h s
  cases hx : f s with
  | mk r s1 =>
    cases hy : f s.opened with
    | mk r' s2 =>
      rw [hx, hy] at h1 h2
      simp only at h1 h2
      subst h1
      cases r with
      | stop e => rw [M.bind_stop hx, M.bind_stop hy]; exact ⟨rfl, h2⟩
      | ok a => rw [M.bind_ok hx, M.bind_ok hy]; exact (k a).apply h2

theorem Blind.get {β : Type} {g : Sel → M Sel β} (h : ∀ s, Blind (g s)) (k : ∀ s : Sel, g s.opened = g s) : Blind (M.get >>= g) := by
  intro s
  rw [M.bind_ok (M.get_run s), M.bind_ok (M.get_run s.opened), k]
  exact h s s

theorem Blind.modify {g : Sel → Sel} (h : ∀ s, (g s).opened = (g s.opened).opened) : Blind (M.modify g) :=
  fun s => ⟨rfl, h s⟩

theorem Blind.ite {α : Type} {c : Prop} [Decidable c] {x y : M Sel α} (h : Blind x) (k : Blind y) :
    Blind (if c then x else y) := by
  split
  · exact h
  · exact k

theorem blind_tokenAt (i : Nat) : Blind (tokenAt i) := by
  intro s
  unfold tokenAt
  show _ ∧ _ = Sel.opened (match s.tokens[i]? with | some t => (Res.ok t, s.opened) | none => (.stop .ub, s.opened)).2
  have e : s.opened.tokens = s.tokens := rfl
  rw [e]
  cases s.tokens[i]? <;> exact ⟨rfl, (opened_idem s).symm⟩

theorem blind_stateAt (i : Nat) : Blind (stateAt i) := by
  intro s
  unfold stateAt
  have e : s.opened.atm = s.atm := rfl
  rw [e]
  cases s.atm[i]? <;> exact ⟨rfl, (opened_idem s).symm⟩

theorem blind_change (i : Nat) (g : Core → Core) : Blind (change i g) := by
  intro s
  unfold change
  have e : s.opened.tokens = s.tokens := rfl
  rw [e]
  cases s.tokens[i]? with
  | none => exact ⟨rfl, (opened_idem s).symm⟩
  | some t =>
    refine ⟨rfl, ?_⟩
    have := opened_idem { s with tokens := s.tokens.set i { t with core := g t.core } }
    exact this.symm

theorem stk_idem (stk : List Scope) : (stk.map Scope.open').map Scope.open' = stk.map Scope.open' := by
  rw [List.map_map]
  apply List.map_congr_left
  intro sc _
  exact scope_idem sc

theorem blind_activate (st : State) (i : Nat) (s : Sel) : (activate st i s).opened = (activate st i s.opened).opened := by
  unfold activate
  simp only []
  by_cases h1 : st.core.mask.empty = true ∧ st.core.typeidx ≠ 0
  · rw [if_pos h1, if_pos h1]
    unfold opened Scope.open'
    simp only [Mask.open_join, Mask.open_idem]
    exact congrArg (fun l => ({ s with triggers := st.core.typeidx :: s.triggers, scope := { s.scope with mask := (s.scope.mask.join st.core.mask).open', followMask := s.scope.followMask.open' }, scopestk := l } : Sel)) (stk_idem s.scopestk).symm
  · rw [if_neg h1, if_neg h1]
    cases st.core.follow
    · unfold opened Scope.open'
      simp only [Mask.open_join, Mask.open_idem, Bool.false_eq_true, if_false]
      exact congrArg (fun l => ({ s with tokens := s.tokens ++ [{ core := st.core, stateidx := i }], scope := { s.scope with mask := (s.scope.mask.join st.core.mask).open', followMask := s.scope.followMask.open' }, scopestk := l } : Sel)) (stk_idem s.scopestk).symm
    · unfold opened Scope.open'
      simp only [Mask.open_join, if_true]
      exact congrArg (fun l => ({ s with tokens := s.tokens ++ [{ core := st.core, stateidx := i }], follows := s.follows ++ [s.tokens.length], scope := { s.scope with mask := (s.scope.mask.join st.core.mask).open', followMask := (s.scope.followMask.join st.core.mask).open' }, scopestk := l } : Sel)) (stk_idem s.scopestk).symm

theorem blind_expand (n : Nat) : ∀ i, Blind (expand n i) := by
  induction n with
  | zero =>
    intro i
    cases i with
    | none => exact .pure ()
    | some i => exact .stop _
  | succ n ih =>
    intro i
    cases i with
    | none => exact .pure ()
    | some i => exact (blind_stateAt i).bind fun st => (Blind.modify (blind_activate st i)).bind fun _ => ih _

theorem blind_produce (i : Nat) (st : State) : Blind (produce i st) := by
  refine Blind.get (fun s => (blind_tokenAt i).bind fun tk => ?_) fun _ => rfl
  refine .ite (blind_expand _ _) (.ite ?_ (.pure ()))
  exact (blind_change i _).bind fun _ => .ite (blind_expand _ _) (blind_change i _)

theorem blind_emit (i : Nat) : Blind (emit i) := by
  refine (blind_tokenAt i).bind fun tk => .ite (.ite (.pure _) (.ite ?_ (.pure 0))) (.pure 0)
  exact (blind_change i _).bind fun _ => .ite (.pure _) ((blind_change i _).bind fun _ => .pure 0)

theorem blind_follow (i : Nat) (key : List Byte) (st : State) : Blind (follow i key st) := by
  unfold follow
  cases st.key with
  | none => exact blind_produce i st
  | some k => exact .ite (blind_produce i st) (.pure ())

theorem blind_giveUp (i : Nat) (type : ElementType) : Blind (giveUp i type) :=
  (blind_tokenAt i).bind fun _ => .ite (blind_change i _) (.pure ())

theorem blind_fire (i : Nat) (type : ElementType) (key : List Byte) : Blind (fire i type key) :=
  (blind_tokenAt i).bind fun _ => .ite ((blind_stateAt _).bind fun st => (blind_follow i key st).bind fun _ => blind_emit i)
    (.pure 0)

theorem blind_matchToken (i : Nat) : Blind (matchToken i) := by
  unfold matchToken
  refine Blind.get (fun s => ?_) fun _ => rfl
  cases s.key with
  | none => exact .pure 0
  | some key =>
    refine .ite (.pure 0) ?_
    exact (blind_fire i s.type key).bind fun rt => (blind_giveUp i s.type).bind fun _ => .pure rt

theorem blind_iter : Blind (M.modify fun s : Sel => { s with iter := s.iter + 1 }) :=
  .modify fun s => (opened_idem { s with iter := s.iter + 1 }).symm

theorem blind_null : Blind (M.modify fun s : Sel => { s with key := none }) :=
  .modify fun s => (opened_idem { s with key := none }).symm

theorem blind_fetchLoop (n : Nat) : Blind (fetchLoop n) := by
  induction n with
  | zero => exact .stop _
  | succ n ih =>
    have visit : ∀ t, Blind (do
        let type ← matchToken t
        M.modify fun s => { s with iter := s.iter + 1 }
        if type = 0 then fetchLoop n else pure type) := fun t =>
      (blind_matchToken t).bind fun type => blind_iter.bind fun _ => .ite ih (.pure _)
    unfold fetchLoop
    refine Blind.get (fun s => ?_) fun _ => rfl
    refine .ite (visit _) ?_
    have rest : Blind (match s.triggers with
        | t :: ts => do
          M.modify fun s => { s with triggers := ts }
          if t = 0 then fetchLoop n else pure t
        | [] => do
          M.modify fun s => { s with key := none }
          pure 0) := by
      cases s.triggers with
      | nil => exact blind_null.bind fun _ => .pure 0
      | cons t ts =>
        exact (Blind.modify fun s => (opened_idem { s with triggers := ts }).symm).bind fun _ => .ite ih (.pure _)
    refine .ite ?_ rest
    cases s.follows[s.iter - s.scope.tokenTo]? with
    | none => exact .stop _
    | some t => exact .ite (visit _) rest

/-- The mask that decides about the item is the same for both. -/
def Agree (s c : Sel) : Prop := s.opened = c.opened ∧ s.scope.mask.matches s.type = c.scope.mask.matches c.type

theorem type_of {s c : Sel} (h : s.opened = c.opened) : s.type = c.type := by
  have := congrArg Sel.type h
  exact this

theorem mask_of {s c : Sel} (h : s.opened = c.opened) : s.scope.mask.open' = c.scope.mask.open' := by
  have := congrArg (fun s => s.scope.mask) h
  exact this

theorem fetch_agree (n : Nat) {s c : Sel} (h : Agree s c) :
    (fetch n s).1 = (fetch n c).1 ∧ (fetch n s).2.opened = (fetch n c).2.opened := by
  unfold fetch
  rw [M.bind_ok (M.get_run s), M.bind_ok (M.get_run c), h.2]
  split
  · exact (blind_fetchLoop n).apply h.1
  · exact (blind_null.bind fun _ => Blind.pure 0).apply h.1

/-- What was waited for, is waited for: processing an item only adds to the mask. -/
def Adds {α : Type} (f : M Sel α) : Prop := ∀ s t, s.scope.mask.matches t = true → (f s).2.scope.mask.matches t = true

theorem Adds.pure {α : Type} (a : α) : Adds (pure a : M Sel α) := fun _ _ h => h
theorem Adds.stop {α : Type} (e : Stop) : Adds (M.stop e : M Sel α) := fun _ _ h => h
theorem Adds.get : Adds (M.get : M Sel Sel) := fun _ _ h => h

theorem Adds.bind {α β : Type} {x : M Sel α} {f : α → M Sel β} (h : Adds x) (k : ∀ a, Adds (f a)) : Adds (x >>= f) := by
  intro s t m
  have h := h s t m
  cases hx : x s with
  | mk r s' =>
    rw [hx] at h
    cases r with
    | ok a => rw [M.bind_ok hx]; exact k a s' t h
    | stop e => rw [M.bind_stop hx]; exact h

theorem Adds.modify {g : Sel → Sel} (h : ∀ s t, s.scope.mask.matches t = true → (g s).scope.mask.matches t = true) : Adds (M.modify g) :=
  fun s t k => h s t k

theorem Adds.ite {α : Type} {c : Prop} [Decidable c] {x y : M Sel α} (h : Adds x) (k : Adds y) :
    Adds (if c then x else y) := by
  split
  · exact h
  · exact k

theorem adds_tokenAt (i : Nat) : Adds (tokenAt i) := by
  intro s t h
  unfold tokenAt
  cases s.tokens[i]? <;> exact h

theorem adds_stateAt (i : Nat) : Adds (stateAt i) := by
  intro s t h
  unfold stateAt
  cases s.atm[i]? <;> exact h

theorem adds_change (i : Nat) (g : Core → Core) : Adds (change i g) := by
  intro s t h
  unfold change
  cases s.tokens[i]? <;> exact h

theorem adds_activate (st : State) (i : Nat) (s : Sel) (t : ElementType) (h : s.scope.mask.matches t = true) :
    (activate st i s).scope.mask.matches t = true := by
  have k : (s.scope.mask.join st.core.mask).matches t = true := by
    show (s.scope.mask.pos ||| st.core.mask.pos).testBit t.toNat = true
    rw [Nat.testBit_or]
    unfold Mask.matches at h
    rw [h]
    rfl
  unfold activate
  simp only []
  by_cases h1 : st.core.mask.empty = true ∧ st.core.typeidx ≠ 0
  · rw [if_pos h1]; exact k
  · rw [if_neg h1]
    cases st.core.follow <;> exact k

theorem adds_expand (n : Nat) : ∀ i, Adds (expand n i) := by
  induction n with
  | zero =>
    intro i
    cases i with
    | none => exact .pure ()
    | some i => exact .stop _
  | succ n ih =>
    intro i
    cases i with
    | none => exact .pure ()
    | some i => exact (adds_stateAt i).bind fun st => (Adds.modify (adds_activate st i)).bind fun _ => ih _

theorem adds_produce (i : Nat) (st : State) : Adds (produce i st) := by
  refine Adds.get.bind fun s => (adds_tokenAt i).bind fun tk => ?_
  refine .ite (adds_expand _ _) (.ite ?_ (.pure ()))
  exact (adds_change i _).bind fun _ => .ite (adds_expand _ _) (adds_change i _)

theorem adds_emit (i : Nat) : Adds (emit i) := by
  refine (adds_tokenAt i).bind fun tk => .ite (.ite (.pure _) (.ite ?_ (.pure 0))) (.pure 0)
  exact (adds_change i _).bind fun _ => .ite (.pure _) ((adds_change i _).bind fun _ => .pure 0)

theorem adds_follow (i : Nat) (key : List Byte) (st : State) : Adds (follow i key st) := by
  unfold follow
  cases st.key with
  | none => exact adds_produce i st
  | some k => exact .ite (adds_produce i st) (.pure ())

theorem adds_giveUp (i : Nat) (type : ElementType) : Adds (giveUp i type) :=
  (adds_tokenAt i).bind fun _ => .ite (adds_change i _) (.pure ())

theorem adds_fire (i : Nat) (type : ElementType) (key : List Byte) : Adds (fire i type key) :=
  (adds_tokenAt i).bind fun _ => .ite ((adds_stateAt _).bind fun st => (adds_follow i key st).bind fun _ => adds_emit i)
    (.pure 0)

theorem adds_matchToken (i : Nat) : Adds (matchToken i) := by
  unfold matchToken
  refine Adds.get.bind fun s => ?_
  cases s.key with
  | none => exact .pure 0
  | some key =>
    refine .ite (.pure 0) ?_
    exact (adds_fire i s.type key).bind fun rt => (adds_giveUp i s.type).bind fun _ => .pure rt

theorem adds_iter : Adds (M.modify fun s : Sel => { s with iter := s.iter + 1 }) := .modify fun _ _ h => h
theorem adds_null : Adds (M.modify fun s : Sel => { s with key := none }) := .modify fun _ _ h => h

theorem adds_fetchLoop (n : Nat) : Adds (fetchLoop n) := by
  induction n with
  | zero => exact .stop _
  | succ n ih =>
    have visit : ∀ t, Adds (do
        let type ← matchToken t
        M.modify fun s => { s with iter := s.iter + 1 }
        if type = 0 then fetchLoop n else pure type) := fun t =>
      (adds_matchToken t).bind fun type => adds_iter.bind fun _ => .ite ih (.pure _)
    unfold fetchLoop
    refine Adds.get.bind fun s => ?_
    refine .ite (visit _) ?_
    have rest : Adds (match s.triggers with
        | t :: ts => do
          M.modify fun s => { s with triggers := ts }
          if t = 0 then fetchLoop n else pure t
        | [] => do
          M.modify fun s => { s with key := none }
          pure 0) := by
      cases s.triggers with
      | nil => exact adds_null.bind fun _ => .pure 0
      | cons t ts =>
        refine Adds.bind (Adds.modify fun _ _ h => h) fun _ => ?_
        exact .ite ih (.pure _)
    refine .ite ?_ rest
    cases s.follows[s.iter - s.scope.tokenTo]? with
    | none => exact .stop _
    | some t => exact .ite (visit _) rest

theorem adds_fetch (n : Nat) : Adds (fetch n) := by
  unfold fetch
  refine Adds.get.bind fun s => ?_
  refine .ite (adds_fetchLoop n) ?_
  exact adds_null.bind fun _ => .pure 0

/-- Both wait for the items of the type, or the masks do not differ in it. -/
def Alike (s c : Sel) : Prop :=
  s.opened = c.opened ∧ ((s.scope.mask.matches s.type = true ∧ c.scope.mask.matches c.type = true) ∨
    (s.type ≠ .OpenTag ∧ s.type ≠ .HeaderStart))

theorem Alike.agree {s c : Sel} (h : Alike s c) : Agree s c := by
  refine ⟨h.1, ?_⟩
  rcases h.2 with ⟨k1, k2⟩ | ⟨k1, k2⟩
  · rw [k1, k2]
  · have k3 := type_of h.1
    have e1 := Mask.open_matches s.scope.mask k1 k2
    have e2 := Mask.open_matches c.scope.mask (k3 ▸ k1) (k3 ▸ k2)
    rw [← e1, ← e2, mask_of h.1, k3]

theorem fetch_alike (n : Nat) {s c : Sel} (h : Alike s c) :
    (fetch n s).1 = (fetch n c).1 ∧ Alike (fetch n s).2 (fetch n c).2 := by
  obtain ⟨h1, h2⟩ := fetch_agree n h.agree
  refine ⟨h1, h2, ?_⟩
  have e1 := (keep_fetch n s).type
  have e2 := (keep_fetch n c).type
  rcases h.2 with ⟨k1, k2⟩ | k
  · left
    rw [e1, e2]
    exact ⟨adds_fetch n s _ k1, adds_fetch n c _ k2⟩
  · right
    rw [e1]
    exact k

theorem walk_alike (n : Nat) (k : Nat) : ∀ (e : Int) {s c : Sel}, Alike s c →
    (walk n false k e s).1 = (walk n false k e c).1 ∧ Alike (walk n false k e s).2 (walk n false k e c).2 := by
  induction k with
  | zero => exact fun e s c h => ⟨rfl, h⟩
  | succ k ih =>
    intro e s c h
    unfold walk
    by_cases he : e = 0
    · rw [if_pos he]; exact ⟨rfl, h⟩
    · rw [if_neg he]
      obtain ⟨h1, h2⟩ := fetch_alike n h
      cases hx : fetch n s with
      | mk r s1 =>
        cases hy : fetch n c with
        | mk r' c1 =>
          rw [hx, hy] at h1 h2
          simp only at h1 h2
          subst h1
          cases r with
          | stop e => rw [M.bind_stop hx, M.bind_stop hy]; exact ⟨rfl, h2⟩
          | ok e' =>
            rw [M.bind_ok hx, M.bind_ok hy]
            simp only [Bool.false_eq_true, if_false]
            obtain ⟨h3, h4⟩ := ih e' h2
            cases hx' : walk n false k e' s1 with
            | mk r s2 =>
              cases hy' : walk n false k e' c1 with
              | mk r' c2 =>
                rw [hx', hy'] at h3 h4
                simp only at h3 h4
                subst h3
                cases r with
                | stop e => rw [M.bind_stop hx', M.bind_stop hy']; exact ⟨rfl, h4⟩
                | ok es => rw [M.bind_ok hx', M.bind_ok hy']; exact ⟨rfl, h4⟩

/-- The state between two items: of the context only the scope and if the last item was an open tag matters. -/
def rest (s : Sel) : Sel := { s with key := none, iter := 0 }

theorem init_alike (type : ElementType) (key : List Byte) (ht : type ≠ .HeaderStart) {s c : Sel} (h : s.rest.opened = c.rest.opened) :
    Alike (initElement type key s) (initElement type key c) := by
  have f1 : s.atm = c.atm := by have k := congrArg Sel.atm h; exact k
  have f2 : s.scopestk.map Scope.open' = c.scopestk.map Scope.open' := by have k := congrArg Sel.scopestk h; exact k
  have f3 : s.follows = c.follows := by have k := congrArg Sel.follows h; exact k
  have f4 : s.triggers = c.triggers := by have k := congrArg Sel.triggers h; exact k
  have f5 : s.tokens = c.tokens := by have k := congrArg Sel.tokens h; exact k
  have f6 : s.type = c.type := by have k := congrArg Sel.type h; exact k
  have f7 : s.scope.open' = c.scope.open' := by have k := congrArg Sel.scope h; exact k
  have g1 : s.scope.mask.open' = c.scope.mask.open' := by have k := congrArg Scope.mask f7; exact k
  have g2 : s.scope.followMask.open' = c.scope.followMask.open' := by have k := congrArg Scope.followMask f7; exact k
  have g3 : s.scope.tokenFrom = c.scope.tokenFrom := by have k := congrArg Scope.tokenFrom f7; exact k
  have g4 : s.scope.tokenTo = c.scope.tokenTo := by have k := congrArg Scope.tokenTo f7; exact k
  have g5 : s.scope.followidx = c.scope.followidx := by have k := congrArg Scope.followidx f7; exact k
  have g6 : (s.scope.followMask.match .OpenTag).open' = (c.scope.followMask.match .OpenTag).open' := by
    rw [← Mask.open_match, g2, Mask.open_match]
  unfold initElement
  simp only []
  by_cases ho : type = .OpenTag
  · rw [if_pos ho, if_pos ho]
    refine ⟨?_, .inl ⟨?_, ?_⟩⟩
    · unfold opened Scope.open'
      simp only [f1, f3, f4, f5, f6, g1, g2, g3, g4, g6, List.map_cons]
      have : s.scopestk.map (fun sc => ({ sc with mask := sc.mask.open', followMask := sc.followMask.open' } : Scope)) =
        c.scopestk.map (fun sc => ({ sc with mask := sc.mask.open', followMask := sc.followMask.open' } : Scope)) := f2
      simp only [this]
    · show (s.scope.followMask.match .OpenTag).matches type = true
      subst ho
      show (s.scope.followMask.pos ||| 1 <<< ElementType.OpenTag.toNat).testBit _ = true
      rw [Nat.testBit_or]
      simp only [Bool.or_eq_true]
      exact .inr (by decide)
    · show (c.scope.followMask.match .OpenTag).matches type = true
      subst ho
      show (c.scope.followMask.pos ||| 1 <<< ElementType.OpenTag.toNat).testBit _ = true
      rw [Nat.testBit_or]
      simp only [Bool.or_eq_true]
      exact .inr (by decide)
  · rw [if_neg ho, if_neg ho]
    refine ⟨?_, .inr ⟨ho, ht⟩⟩
    unfold opened Scope.open'
    have : s.scopestk.map (fun sc => ({ sc with mask := sc.mask.open', followMask := sc.followMask.open' } : Scope)) =
        c.scopestk.map (fun sc => ({ sc with mask := sc.mask.open', followMask := sc.followMask.open' } : Scope)) := f2
    simp only [f1, f3, f4, f5, f6, g1, g2, g3, g4, this]

theorem close_opened {s c : Sel} (h : s.opened = c.opened) : (closeElement s).opened = (closeElement c).opened := by
  have f1 : s.atm = c.atm := by have k := congrArg Sel.atm h; exact k
  have f2 : s.scopestk.map Scope.open' = c.scopestk.map Scope.open' := by have k := congrArg Sel.scopestk h; exact k
  have f3 : s.follows = c.follows := by have k := congrArg Sel.follows h; exact k
  have f4 : s.triggers = c.triggers := by have k := congrArg Sel.triggers h; exact k
  have f5 : s.tokens = c.tokens := by have k := congrArg Sel.tokens h; exact k
  have f6 : s.type = c.type := by have k := congrArg Sel.type h; exact k
  have f8 : s.key = c.key := by have k := congrArg Sel.key h; exact k
  have f9 : s.iter = c.iter := by have k := congrArg Sel.iter h; exact k
  unfold closeElement
  rw [f6]
  split
  · cases h1 : s.scopestk with
    | nil =>
      cases h2 : c.scopestk with
      | nil => exact h
      | cons x y => rw [h1, h2] at f2; cases f2
    | cons x xs =>
      cases h2 : c.scopestk with
      | nil => rw [h1, h2] at f2; cases f2
      | cons y ys =>
        rw [h1, h2] at f2
        simp only [List.map_cons, List.cons.injEq] at f2
        have f7 := f2.1
        have g4 : x.tokenTo = y.tokenTo := by have k := congrArg Scope.tokenTo f7; exact k
        have g5 : x.followidx = y.followidx := by have k := congrArg Scope.followidx f7; exact k
        unfold opened
        simp only [f1, f3, f4, f5, f8, f9, g4, g5, f2.1, f2.2]
  · exact h

theorem push_alike (n : Nat) (type : ElementType) (key : List Byte) (ht : type ≠ .HeaderStart) {s c : Sel}
    (h : s.rest.opened = c.rest.opened) : (push n false type key s).1 = (push n false type key c).1 ∧
      (push n false type key s).2.rest.opened = (push n false type key c).2.rest.opened := by
  have rests : ∀ {x y : Sel}, x.opened = y.opened → x.rest.opened = y.rest.opened := by
    intro x y k
    exact congrArg rest k
  have h0 := init_alike type key ht h
  unfold push
  rw [M.bind_ok (M.modify_run _ _), M.bind_ok (M.modify_run _ _)]
  obtain ⟨h1, h2⟩ := fetch_alike n h0
  cases hx : fetch n (initElement type key s) with
  | mk r s1 =>
    cases hy : fetch n (initElement type key c) with
    | mk r' c1 =>
      rw [hx, hy] at h1 h2
      simp only at h1 h2
      subst h1
      cases r with
      | stop e => rw [M.bind_stop hx, M.bind_stop hy]; exact ⟨rfl, rests h2.1⟩
      | ok e =>
        rw [M.bind_ok hx, M.bind_ok hy]
        obtain ⟨h3, h4⟩ := walk_alike n n e h2
        cases hx' : walk n false n e s1 with
        | mk r s2 =>
          cases hy' : walk n false n e c1 with
          | mk r' c2 =>
            rw [hx', hy'] at h3 h4
            simp only at h3 h4
            subst h3
            cases r with
            | stop e => rw [M.bind_stop hx', M.bind_stop hy']; exact ⟨rfl, rests h4.1⟩
            | ok es =>
              rw [M.bind_ok hx', M.bind_ok hy', M.bind_ok (M.modify_run _ _), M.bind_ok (M.modify_run _ _)]
              exact ⟨rfl, rests (close_opened h4.1)⟩

theorem feed_alike (n : Nat) (items : List (ElementType × List Byte)) : (∀ it ∈ items, it.1 ≠ .HeaderStart) → ∀ {s c : Sel},
    s.rest.opened = c.rest.opened → (feed n items s).1 = (feed n items c).1 := by
  induction items with
  | nil => exact fun _ _ _ _ => rfl
  | cons it items ih =>
    intro hi s c h
    obtain ⟨type, key⟩ := it
    obtain ⟨h1, h2⟩ := push_alike n type key (hi _ (List.mem_cons_self ..)) h
    have ih' := fun {s c} => @ih (fun it k => hi it (List.mem_cons_of_mem _ k)) s c
    unfold feed
    cases hx : push n false type key s with
    | mk r s1 =>
      cases hy : push n false type key c with
      | mk r' c1 =>
        rw [hx, hy] at h1 h2
        simp only at h1 h2
        subst h1
        cases r with
        | stop e => rw [M.bind_stop hx, M.bind_stop hy]
        | ok e =>
          rw [M.bind_ok hx, M.bind_ok hy]
          have h3 := ih' h2
          cases hx' : feed n items s1 with
          | mk r s2 =>
            cases hy' : feed n items c1 with
            | mk r' c2 =>
              rw [hx', hy'] at h3
              simp only at h3
              subst h3
              cases r with
              | stop e => rw [M.bind_stop hx', M.bind_stop hy']
              | ok es => rw [M.bind_ok hx', M.bind_ok hy']; rfl

end Sel

end TW.Path
