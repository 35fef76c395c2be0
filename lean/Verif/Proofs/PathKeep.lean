import Verif.Spec.Path

/-!
# What the processing of an item leaves as it is, for any automaton
-/

namespace TW.Path

namespace Sel

/-- Tokens and descendant searches are only added; the scope stack, the automaton and the item type stay. -/
structure Keeps (s s' : Sel) : Prop where
  atm : s'.atm = s.atm
  stk : s'.scopestk = s.scopestk
  type : s'.type = s.type
  tokens : s.tokens.map (·.stateidx) <+: s'.tokens.map (·.stateidx)
  follows : s.follows <+: s'.follows

theorem Keeps.refl (s : Sel) : Keeps s s := ⟨rfl, rfl, rfl, List.prefix_rfl, List.prefix_rfl⟩

theorem Keeps.trans {a b c : Sel} (h : Keeps a b) (k : Keeps b c) : Keeps a c :=
  ⟨k.atm.trans h.atm, k.stk.trans h.stk, k.type.trans h.type, h.tokens.trans k.tokens, h.follows.trans k.follows⟩

/-- An operation keeping it, whatever its result is. -/
def Keeping {α : Type} (x : M Sel α) : Prop := ∀ s, Keeps s (x s).2

theorem Keeping.pure {α : Type} (a : α) : Keeping (pure a : M Sel α) := fun s => .refl s

theorem Keeping.stop {α : Type} (e : Stop) : Keeping (M.stop e : M Sel α) := fun s => .refl s

theorem Keeping.get : Keeping (M.get : M Sel Sel) := fun s => .refl s

theorem Keeping.bind {α β : Type} {x : M Sel α} {f : α → M Sel β} (h : Keeping x) (k : ∀ a, Keeping (f a)) :
    Keeping (x >>= f) := by
  intro s
  have h := h s
  cases hx : x s with
  | mk r s' =>
    rw [hx] at h
    cases r with
    | ok a => rw [M.bind_ok hx]; exact h.trans (k a s')
    | stop e => rw [M.bind_stop hx]; exact h

theorem Keeping.modify {g : Sel → Sel} (h : ∀ s, Keeps s (g s)) : Keeping (M.modify g) := fun s => h s

theorem Keeping.ite {α : Type} {c : Prop} [Decidable c] {x y : M Sel α} (h : Keeping x) (k : Keeping y) :
    Keeping (if c then x else y) := by
  split
  · exact h
  · exact k

theorem keep_tokenAt (i : Nat) : Keeping (tokenAt i) := by
  intro s
  unfold tokenAt
  cases s.tokens[i]? <;> exact .refl s

theorem keep_stateAt (i : Nat) : Keeping (stateAt i) := by
  intro s
  unfold stateAt
  cases s.atm[i]? <;> exact .refl s

theorem keep_change (i : Nat) (g : Core → Core) : Keeping (change i g) := by
  intro s
  unfold change
  cases h : s.tokens[i]? with
  | none => exact .refl s
  | some t =>
    refine ⟨rfl, rfl, rfl, ?_, List.prefix_rfl⟩
    simp only [List.map_set]
    have : (s.tokens.map (·.stateidx)).set i t.stateidx = s.tokens.map (·.stateidx) := by
      apply List.ext_getElem?
      intro j
      rw [List.getElem?_set]
      split
      · rename_i hij
        subst hij
        rw [List.getElem?_map, h]
        have : i < s.tokens.length := (List.getElem?_eq_some_iff.1 h).1
        simp [this]
      · rfl
    rw [this]
    exact List.prefix_rfl

theorem keep_activate (st : State) (i : Nat) (s : Sel) : Keeps s (activate st i s) := by
  unfold activate
  simp only []
  by_cases h1 : st.core.mask.empty = true ∧ st.core.typeidx ≠ 0
  · rw [if_pos h1]
    exact ⟨rfl, rfl, rfl, List.prefix_rfl, List.prefix_rfl⟩
  · rw [if_neg h1]
    cases st.core.follow
    · exact ⟨rfl, rfl, rfl, by simp, List.prefix_rfl⟩
    · exact ⟨rfl, rfl, rfl, by simp, by simp⟩

theorem keep_expand (n : Nat) : ∀ i, Keeping (expand n i) := by
  induction n with
  | zero =>
    intro i
    cases i with
    | none => exact .pure ()
    | some i => exact .stop _
  | succ n ih =>
    intro i
    cases i with
    | none => exact .pure ()
    | some i => exact (keep_stateAt i).bind fun st => (Keeping.modify (keep_activate st i)).bind fun _ => ih _

theorem keep_produce (i : Nat) (st : State) : Keeping (produce i st) := by
  refine Keeping.get.bind fun s => (keep_tokenAt i).bind fun tk => ?_
  refine .ite (keep_expand _ _) (.ite ?_ (.pure ()))
  exact (keep_change i _).bind fun _ => .ite (keep_expand _ _) (keep_change i _)

theorem keep_emit (i : Nat) : Keeping (emit i) := by
  refine (keep_tokenAt i).bind fun tk => .ite (.ite (.pure _) (.ite ?_ (.pure 0))) (.pure 0)
  exact (keep_change i _).bind fun _ => .ite (.pure _) ((keep_change i _).bind fun _ => .pure 0)

theorem keep_follow (i : Nat) (key : List Byte) (st : State) : Keeping (follow i key st) := by
  unfold follow
  cases st.key with
  | none => exact keep_produce i st
  | some k => exact .ite (keep_produce i st) (.pure ())

theorem keep_giveUp (i : Nat) (type : ElementType) : Keeping (giveUp i type) :=
  (keep_tokenAt i).bind fun _ => .ite (keep_change i _) (.pure ())

theorem keep_fire (i : Nat) (type : ElementType) (key : List Byte) : Keeping (fire i type key) :=
  (keep_tokenAt i).bind fun _ => .ite ((keep_stateAt _).bind fun st => (keep_follow i key st).bind fun _ => keep_emit i)
    (.pure 0)

theorem keep_matchToken (i : Nat) : Keeping (matchToken i) := by
  unfold matchToken
  refine Keeping.get.bind fun s => ?_
  cases s.key with
  | none => exact .pure 0
  | some key =>
    refine .ite (.pure 0) ?_
    exact (keep_fire i s.type key).bind fun rt => (keep_giveUp i s.type).bind fun _ => .pure rt

theorem keep_null : Keeping (M.modify fun s : Sel => { s with key := none }) :=
  .modify fun _ => ⟨rfl, rfl, rfl, List.prefix_rfl, List.prefix_rfl⟩

theorem keep_fetchLoop (n : Nat) : Keeping (fetchLoop n) := by
  induction n with
  | zero => exact .stop _
  | succ n ih =>
    have next : Keeping (M.modify fun s : Sel => { s with iter := s.iter + 1 }) :=
      .modify fun s => ⟨rfl, rfl, rfl, List.prefix_rfl, List.prefix_rfl⟩
    have visit : ∀ t, Keeping (do
        let type ← matchToken t
        M.modify fun s => { s with iter := s.iter + 1 }
        if type = 0 then fetchLoop n else pure type : M Sel Int) := fun t =>
      (keep_matchToken t).bind fun ty => next.bind fun _ => .ite ih (.pure ty)
    unfold fetchLoop
    refine Keeping.get.bind fun s => ?_
    refine .ite (visit _) ?_
    simp only []
    have rest : Keeping (match s.triggers with
        | t :: ts => do
          M.modify fun s => { s with triggers := ts }
          if t = 0 then fetchLoop n else pure t
        | [] => do
          M.modify fun s => { s with key := none }
          pure 0 : M Sel Int) := by
      cases s.triggers with
      | nil => exact keep_null.bind fun _ => .pure 0
      | cons t ts =>
        exact Keeping.bind (x := M.modify fun s : Sel => { s with triggers := ts })
          (.modify fun s => ⟨rfl, rfl, rfl, List.prefix_rfl, List.prefix_rfl⟩) fun _ => .ite ih (.pure t)
    refine .ite ?_ rest
    cases s.follows[s.iter - s.scope.tokenTo]? with
    | none => exact .stop _
    | some t => exact .ite (visit t) rest

theorem keep_fetch (n : Nat) : Keeping (fetch n) :=
  Keeping.get.bind fun _ => .ite (keep_fetchLoop n)
    (keep_null.bind fun _ => .pure 0)

theorem keep_walk (n : Nat) (k : Nat) : ∀ e, Keeping (walk n false k e) := by
  induction k with
  | zero => exact fun e => .stop _
  | succ k ih =>
    intro e
    unfold walk
    refine .ite (.pure []) ((keep_fetch n).bind fun e' => ?_)
    simp only [Bool.false_eq_true, if_false]
    exact (ih e').bind fun es => .pure _

theorem keep_go (n : Nat) (k : Nat) : Keeping (pushSome.go n k) := by
  induction k with
  | zero => exact .pure ()
  | succ k ih => exact (keep_fetch n).bind fun _ => ih

/-! ## Items -/

/-- What an item does. -/
def Step (type : ElementType) (key : List Byte) (s s' : Sel) : Prop :=
  ∃ s1, Keeps (initElement type key s) s1 ∧ s' = closeElement s1

theorem pushSome_step {n : Nat} {type : ElementType} {key : List Byte} {k : Nat} {s s' : Sel}
    (h : pushSome n type key k s = (.ok (), s')) : Step type key s s' := by
  unfold pushSome at h
  rw [M.bind_ok (M.modify_run _ _)] at h
  have h1 := keep_fetch n (initElement type key s)
  cases h2 : fetch n (initElement type key s) with
  | mk x s1 =>
    rw [h2] at h1
    cases x with
    | stop e => rw [M.bind_stop h2] at h; cases h
    | ok e =>
      rw [M.bind_ok h2] at h
      have h3 := keep_go n k s1
      cases h4 : pushSome.go n k s1 with
      | mk y s2 =>
        rw [h4] at h3
        cases y with
        | stop e => rw [M.bind_stop h4] at h; cases h
        | ok u =>
          rw [M.bind_ok h4] at h
          cases h
          exact ⟨s2, h1.trans h3, rfl⟩

theorem push_step {n : Nat} {type : ElementType} {key : List Byte} {s : Sel} {rs : List Int} {s' : Sel}
    (h : push n false type key s = (.ok rs, s')) : Step type key s s' := by
  unfold push at h
  rw [M.bind_ok (M.modify_run _ _)] at h
  have h1 := keep_fetch n (initElement type key s)
  cases h2 : fetch n (initElement type key s) with
  | mk x s1 =>
    rw [h2] at h1
    cases x with
    | stop e => rw [M.bind_stop h2] at h; cases h
    | ok e =>
      rw [M.bind_ok h2] at h
      have h3 := keep_walk n n e s1
      cases h4 : walk n false n e s1 with
      | mk y s2 =>
        rw [h4] at h3
        cases y with
        | stop e => rw [M.bind_stop h4] at h; cases h
        | ok u =>
          rw [M.bind_ok h4] at h
          cases h
          exact ⟨s2, h1.trans h3, rfl⟩

theorem init_type (type : ElementType) (key : List Byte) (s : Sel) : (initElement type key s).type = type := by
  unfold initElement
  simp only []
  split <;> rfl

theorem init_tokens (type : ElementType) (key : List Byte) (s : Sel) : (initElement type key s).tokens = s.tokens := by
  unfold initElement
  simp only []
  split <;> rfl

theorem init_follows (type : ElementType) (key : List Byte) (s : Sel) : (initElement type key s).follows = s.follows := by
  unfold initElement
  simp only []
  split <;> rfl

/-- Other items than tags. -/
theorem Step.other {type : ElementType} {key : List Byte} {s s' : Sel} (h : Step type key s s')
    (ht : type ≠ .OpenTag ∧ type ≠ .CloseTag ∧ type ≠ .CloseTagIm) :
    s'.scopestk = s.scopestk ∧ s.tokens.map (·.stateidx) <+: s'.tokens.map (·.stateidx) ∧ s.follows <+: s'.follows := by
  obtain ⟨s1, h1, rfl⟩ := h
  have h2 : s1.type = type := h1.type.trans (init_type ..)
  have h3 : closeElement s1 = s1 := by
    unfold closeElement
    rw [if_neg (by rw [h2]; exact fun h => h.elim ht.2.1 ht.2.2)]
  rw [h3]
  have h4 := h1.tokens
  rw [init_tokens] at h4
  have h5 := h1.follows
  rw [init_follows] at h5
  refine ⟨h1.stk.trans ?_, h4, h5⟩
  unfold initElement
  simp only []
  rw [if_neg ht.1]

/-- An open tag. -/
theorem Step.opened {key : List Byte} {s s' : Sel} (h : Step .OpenTag key s s') :
    (∃ sc : Scope, s'.scopestk = sc :: s.scopestk ∧ sc.tokenTo = s.tokens.length ∧ sc.followidx = s.follows.length ∧
      sc.mask = s.scope.mask ∧ sc.followMask = s.scope.followMask) ∧
      s.tokens.map (·.stateidx) <+: s'.tokens.map (·.stateidx) ∧ s.follows <+: s'.follows := by
  obtain ⟨s1, h1, rfl⟩ := h
  have h2 : s1.type = .OpenTag := h1.type.trans (init_type ..)
  have h3 : closeElement s1 = s1 := by
    unfold closeElement
    rw [if_neg (by rw [h2]; decide)]
  rw [h3]
  have h4 := h1.tokens
  rw [init_tokens] at h4
  have h5 := h1.follows
  rw [init_follows] at h5
  refine ⟨?_, h4, h5⟩
  rw [h1.stk]
  unfold initElement
  simp only [if_true]
  exact ⟨_, rfl, rfl, rfl, rfl, rfl⟩

/-- A close tag. -/
theorem Step.closed {type : ElementType} {key : List Byte} {s s' : Sel} (h : Step type key s s')
    (ht : type = .CloseTag ∨ type = .CloseTagIm) {sc : Scope} {stk : List Scope} (hs : s.scopestk = sc :: stk)
    {idxs : List Nat} (h1 : idxs <+: s.tokens.map (·.stateidx)) (h2 : sc.tokenTo = idxs.length)
    {fols : List Nat} (h3 : fols <+: s.follows) (h4 : sc.followidx = fols.length) :
    s'.scopestk = stk ∧ s'.tokens.map (·.stateidx) = idxs ∧ s'.follows = fols ∧ s'.scope = sc := by
  obtain ⟨s1, k1, rfl⟩ := h
  have k2 : s1.type = type := k1.type.trans (init_type ..)
  have k3 : s1.scopestk = sc :: stk := by
    rw [k1.stk, ← hs]
    unfold initElement
    simp only []
    rw [if_neg (by rcases ht with rfl | rfl <;> decide)]
  have k4 := k1.tokens
  rw [init_tokens] at k4
  have k5 := k1.follows
  rw [init_follows] at k5
  have k6 : closeElement s1 = { s1 with scope := sc, scopestk := stk, follows := s1.follows.take sc.followidx ++ List.replicate (sc.followidx - s1.follows.length) 0, tokens := s1.tokens.take sc.tokenTo ++ List.replicate (sc.tokenTo - s1.tokens.length) { core := {}, stateidx := 0 } } := by
    unfold closeElement
    rw [if_pos (by rw [k2]; exact ht), k3]
  rw [k6]
  have a := h1.trans k4
  have b := h3.trans k5
  have la : sc.tokenTo ≤ s1.tokens.length := by
    have := a.length_le
    rw [List.length_map] at this
    omega
  have lb : sc.followidx ≤ s1.follows.length := by
    have := b.length_le
    omega
  refine ⟨rfl, ?_, ?_, rfl⟩
  · rw [Nat.sub_eq_zero_of_le la, List.replicate_zero, List.append_nil, List.map_take, h2]
    exact (List.prefix_iff_eq_take.1 a).symm
  · rw [Nat.sub_eq_zero_of_le lb, List.replicate_zero, List.append_nil, h4]
    exact (List.prefix_iff_eq_take.1 b).symm

/-! ## Sequences of items -/

open Spec.Path (Item Balanced takes)

inductive Steps : List Item → Sel → Sel → Prop where
  | nil (s : Sel) : Steps [] s s
  | cons {it : Item} {items : List Item} {s s1 s2 : Sel} : Step it.1 it.2 s s1 → Steps items s1 s2 → Steps (it :: items) s s2

theorem Steps.split : ∀ {xs ys : List Item} {s s' : Sel}, Steps (xs ++ ys) s s' → ∃ s1, Steps xs s s1 ∧ Steps ys s1 s' := by
  intro xs
  induction xs with
  | nil => intro ys s s' h; exact ⟨s, .nil s, h⟩
  | cons x xs ih =>
    intro ys s s' h
    cases h with
    | cons h1 h2 =>
      obtain ⟨s1, h3, h4⟩ := ih h2
      exact ⟨s1, .cons h1 h3, h4⟩

theorem Steps.element {a b : Item} {inner : List Item} (ha : a.1 = .OpenTag) (hb : b.1 = .CloseTag ∨ b.1 = .CloseTagIm)
    (hi : ∀ {s s'}, Steps inner s s' → s'.scopestk = s.scopestk ∧
      s.tokens.map (·.stateidx) <+: s'.tokens.map (·.stateidx) ∧ s.follows <+: s'.follows)
    {s s' : Sel} (h : Steps (a :: inner ++ [b]) s s') :
    s'.scopestk = s.scopestk ∧ s'.tokens.map (·.stateidx) = s.tokens.map (·.stateidx) ∧ s'.follows = s.follows ∧
      s'.scope.mask = s.scope.mask ∧ s'.scope.followMask = s.scope.followMask := by
  obtain ⟨s2, h1, h2⟩ := h.split
  cases h1 with
  | @cons _ _ _ s1 _ h3 h4 =>
    cases h2 with
    | cons h5 h6 =>
      cases h6
      rw [ha] at h3
      obtain ⟨⟨sc, k1, k2, k3, k4, k5⟩, k6, k7⟩ := h3.opened
      obtain ⟨k8, k9, k10⟩ := hi h4
      obtain ⟨l1, l2, l3, l4⟩ := h5.closed hb (k8.trans k1) (k6.trans k9) (by rw [k2, List.length_map])
        (k7.trans k10) k3
      exact ⟨l1, l2, l3, by rw [l4, k4], by rw [l4, k5]⟩

theorem Steps.balanced {items : List Item} (hb : Balanced items) : ∀ {s s'}, Steps items s s' → s'.scopestk = s.scopestk ∧
    s.tokens.map (·.stateidx) <+: s'.tokens.map (·.stateidx) ∧ s.follows <+: s'.follows := by
  induction hb with
  | nil => intro s s' h; cases h; exact ⟨rfl, List.prefix_rfl, List.prefix_rfl⟩
  | item ht _ ih =>
    intro s s' h
    cases h with
    | cons h1 h2 =>
      obtain ⟨a1, a2, a3⟩ := h1.other ht
      obtain ⟨b1, b2, b3⟩ := ih h2
      exact ⟨b1.trans a1, a2.trans b2, a3.trans b3⟩
  | @element a b inner items ha hb' _ _ ih1 ih2 =>
    intro s s' h
    have e : a :: inner ++ b :: items = (a :: inner ++ [b]) ++ items := by simp
    rw [e] at h
    obtain ⟨s1, h1, h2⟩ := h.split
    obtain ⟨a1, a2, a3, -⟩ := Steps.element ha hb' ih1 h1
    obtain ⟨b1, b2, b3⟩ := ih2 h2
    exact ⟨b1.trans a1, a2 ▸ b2, a3 ▸ b3⟩

theorem takes_steps {n : Nat} : ∀ {its : List (Item × Nat)} {s s' : Sel}, takes n its s = (.ok (), s') →
    Steps (its.map (·.1)) s s' := by
  intro its
  induction its with
  | nil => intro s s' h; cases h; exact .nil _
  | cons it its ih =>
    intro s s' h
    unfold takes at h
    cases h1 : pushSome n it.1.1 it.1.2 it.2 s with
    | mk x s1 =>
      cases x with
      | stop e => rw [M.bind_stop h1] at h; cases h
      | ok u =>
        rw [M.bind_ok h1] at h
        exact .cons (pushSome_step h1) (ih h)

theorem feed_steps {n : Nat} : ∀ {items : List Item} {s s' : Sel} {rss : List (List Int)}, feed n items s = (.ok rss, s') →
    Steps items s s' := by
  intro its
  induction its with
  | nil => intro s s' rss h; cases h; exact .nil _
  | cons it its ih =>
    intro s s' rss h
    unfold feed at h
    cases h1 : push n false it.1 it.2 s with
    | mk x s1 =>
      cases x with
      | stop e => rw [M.bind_stop h1] at h; cases h
      | ok u =>
        rw [M.bind_ok h1] at h
        cases h2 : feed n its s1 with
        | mk y s2 =>
          cases y with
          | stop e => rw [M.bind_stop h2] at h; cases h
          | ok v =>
            rw [M.bind_ok h2] at h
            cases h
            exact .cons (push_step h1) (ih h2)

/-! ## Postfix increment -/

theorem walk_post {n : Nat} (k : Nat) : ∀ (e : Int) (s : Sel), s.type ≠ .CloseTag → s.type ≠ .CloseTagIm →
    walk n true k e s = walk n false k e s := by
  induction k with
  | zero => intros; rfl
  | succ k ih =>
    intro e s h1 h2
    unfold walk
    by_cases h0 : e = 0
    · rw [if_pos h0, if_pos h0]
    · rw [if_neg h0, if_neg h0]
      have h3 := (keep_fetch n s).type
      cases h4 : fetch n s with
      | mk x s1 =>
        rw [h4] at h3
        cases x with
        | stop er => rw [M.bind_stop h4, M.bind_stop h4]
        | ok e' =>
          rw [M.bind_ok h4, M.bind_ok h4]
          simp only [if_true, Bool.false_eq_true, if_false]
          have h5 : closeElement s1 = s1 := by
            unfold closeElement
            rw [if_neg]
            rw [h3]
            exact fun h => h.elim h1 h2
          rw [M.bind_ok (M.modify_run _ _), h5]
          cases h6 : walk n false k e' s1 with
          | mk y s2 =>
            have h7 := ih e' s1 (by rw [h3]; exact h1) (by rw [h3]; exact h2)
            rw [h6] at h7
            cases y with
            | stop er => rw [M.bind_stop h7, M.bind_stop h6]
            | ok v => rw [M.bind_ok h7, M.bind_ok h6]

end Sel

/-! ## The same step again -/

namespace Atm

theorem stateAt_ok {a : Atm} {i : Nat} {st : State} (h : a[i]? = some st) : stateAt i a = (.ok st, a) := by
  unfold stateAt
  rw [h]

/-- The search does not change the automaton; if nothing was found it ends at a state without link, and the search
goes on from there if there is a link. -/
theorem seekStep_run (mask : Mask) (key : List Byte) (follow : Bool) (n : Nat) : ∀ {i : Nat} {a : Atm} {r : Option Nat × Nat} {a' : Atm},
    seekStep mask key follow n i a = (.ok r, a') → a' = a ∧
      (r.1 = none → (∃ st, a[r.2]? = some st ∧ st.link = none) ∧
        ∀ (b : Atm) (l : Nat), b[r.2]? = (a[r.2]?.map fun s => { s with link := some l }) → (∀ j, j ≠ r.2 → j < a.length → b[j]? = a[j]?) →
          ∀ m, n ≤ m → ∀ st, b[l]? = some st → st.key = some key → st.core.follow = follow → mask = st.core.mask → ∀ x, st.next = some x →
            seekStep mask key follow (m + 1) i b = (.ok (some x, l), b)) := by
  induction n with
  | zero => intro i a r a' h; cases h
  | succ n ih =>
    intro i a r a' h
    unfold seekStep at h
    cases h1 : a[i]? with
    | none =>
      have : stateAt i a = (.stop .ub, a) := by unfold stateAt; rw [h1]
      rw [M.bind_stop this] at h
      cases h
    | some s =>
      rw [M.bind_ok (stateAt_ok h1)] at h
      by_cases hc : s.key = some key ∧ s.core.follow = follow ∧ mask = s.core.mask
      · rw [if_pos hc] at h
        cases hn : s.next with
        | none => rw [hn] at h; cases h
        | some j =>
          rw [hn] at h
          cases h
          exact ⟨rfl, fun h => nomatch h⟩
      · rw [if_neg hc] at h
        cases hl : s.link with
        | none =>
          rw [hl] at h
          cases h
          refine ⟨rfl, fun _ => ⟨⟨s, h1, hl⟩, ?_⟩⟩
          intro b l hb _ m hm st k1 k2 k3 k4 x k5
          simp only [h1, Option.map_some] at hb
          obtain ⟨m, rfl⟩ : ∃ j, m = j + 1 := ⟨m - 1, by omega⟩
          unfold seekStep
          rw [M.bind_ok (stateAt_ok hb), if_neg hc]
          simp only []
          unfold seekStep
          rw [M.bind_ok (stateAt_ok k1), if_pos ⟨k2, k3, k4⟩, k5]
          rfl
        | some l' =>
          rw [hl] at h
          simp only [] at h
          obtain ⟨e, h2⟩ := ih h
          refine ⟨e, fun hr => ?_⟩
          obtain ⟨h3, h4⟩ := h2 hr
          refine ⟨h3, ?_⟩
          intro b l hb hb' m hm st k1 k2 k3 k4 x k5
          obtain ⟨m, rfl⟩ : ∃ j, m = j + 1 := ⟨m - 1, by omega⟩
          have hi : i ≠ r.2 := by
            intro hi
            obtain ⟨st', h5, h6⟩ := h3
            rw [← hi, h1] at h5
            cases h5
            rw [hl] at h6
            cases h6
          have hlt : i < a.length := (List.getElem?_eq_some_iff.1 h1).1
          have hbi : b[i]? = some s := by rw [hb' i hi hlt, h1]
          unfold seekStep
          rw [M.bind_ok (stateAt_ok hbi), if_neg hc, hl]
          simp only []
          exact h4 b l hb hb' m (by omega) st k1 k2 k3 k4 x k5

theorem seekStep_mono (mask : Mask) (key : List Byte) (follow : Bool) (n : Nat) : ∀ {i : Nat} {a : Atm} {r : Option Nat × Nat} {a' : Atm},
    seekStep mask key follow n i a = (.ok r, a') → ∀ m, n ≤ m → seekStep mask key follow m i a = (.ok r, a') := by
  induction n with
  | zero => intro i a r a' h; cases h
  | succ n ih =>
    intro i a r a' h m hm
    obtain ⟨m, rfl⟩ : ∃ j, m = j + 1 := ⟨m - 1, by omega⟩
    unfold seekStep at h ⊢
    cases h1 : a[i]? with
    | none =>
      have : stateAt i a = (.stop .ub, a) := by unfold stateAt; rw [h1]
      rw [M.bind_stop this] at h
      cases h
    | some s =>
      rw [M.bind_ok (stateAt_ok h1)] at h ⊢
      by_cases hc : s.key = some key ∧ s.core.follow = follow ∧ mask = s.core.mask
      · rw [if_pos hc] at h ⊢
        exact h
      · rw [if_neg hc] at h ⊢
        cases hl : s.link with
        | none => rw [hl] at h; exact h
        | some l =>
          rw [hl] at h
          exact ih h m (by omega)

theorem change_ok {a : Atm} {i : Nat} {st : State} (h : a[i]? = some st) (g : State → State) :
    change i g a = (.ok (), a.set i (g st)) := by
  unfold change
  rw [h]

/-- A new state linked to a state without link. -/
theorem freeState_new {a : Atm} {i : Nat} {st : State} (h : a[i]? = some st) (hl : st.link = none) :
    freeState i a = (.ok a.length, a.set i { st with link := some a.length } ++ [({} : State)]) := by
  have h1 : (!st.isempty) = true := by
    unfold State.isempty
    rw [hl]
    simp
  unfold freeState
  rw [M.bind_ok (stateAt_ok h), if_pos h1, M.bind_ok (M.get_run _)]
  have h2 : lastLink (a.length + 1) i a = (.ok i, a) := by
    unfold lastLink
    rw [M.bind_ok (stateAt_ok h), hl]
    rfl
  rw [M.bind_ok h2, M.bind_ok (change_ok h _)]
  rfl

/-- The second part of `defineNext`. -/
def define (i : Nat) (op : Op) (key : Option (List Byte)) (follow : Bool) : M Atm Nat := do
  let a ← M.get
  let (found, last) ← seekStep (({} : Mask).seekop op) (key.getD []) follow (a.length + 1) i
  match found with
  | some j => pure j
  | none => do
    let i ← freeState last
    push {}
    let a ← M.get
    change i fun s => s.defineNext op key (a.length - 1) follow
    pure (a.length - 1)

theorem defineNext_eq (i : Nat) (op : Op) (key : Option (List Byte)) (follow : Bool) (a : Atm) :
    defineNext i op key follow a = if a.length = 0 then define 0 op key follow (a ++ [({} : State)]) else define i op key follow a := by
  unfold defineNext
  rw [M.bind_ok (M.get_run _)]
  by_cases h : a.length = 0
  · rw [if_pos h, if_pos h]
    rfl
  · rw [if_neg h, if_neg h]
    rfl

theorem define_again {a a' : Atm} {i j : Nat} {op : Op} {key : List Byte} {follow : Bool} (h0 : a.length ≠ 0)
    (h : define i op (some key) follow a = (.ok j, a')) : a'.length ≠ 0 ∧ define i op (some key) follow a' = (.ok j, a') := by
  unfold define at h
  rw [M.bind_ok (M.get_run _)] at h
  simp only [Option.getD_some] at h
  cases h1 : seekStep (({} : Mask).seekop op) key follow (a.length + 1) i a with
  | mk x a1 =>
    cases x with
    | stop e => rw [M.bind_stop h1] at h; cases h
    | ok r =>
      obtain ⟨rfl, h2⟩ := seekStep_run _ _ _ _ h1
      obtain ⟨found, last⟩ := r
      rw [M.bind_ok h1] at h
      cases found with
      | some k =>
        simp only [] at h
        cases h
        refine ⟨h0, ?_⟩
        unfold define
        rw [M.bind_ok (M.get_run _)]
        simp only [Option.getD_some]
        rw [M.bind_ok h1]
        rfl
      | none =>
        obtain ⟨⟨st, h3, h4⟩, h5⟩ := h2 rfl
        simp only [] at h h3
        rw [M.bind_ok (freeState_new h3 h4)] at h
        have hlast : last < a1.length := (List.getElem?_eq_some_iff.1 h3).1
        -- the automaton with the two new states
        obtain ⟨b, hb⟩ : ∃ b, b = (a1.set last { st with link := some a1.length } ++ [({} : State)]) ++ [({} : State)] := ⟨_, rfl⟩
        have hp : push {} (a1.set last { st with link := some a1.length } ++ [({} : State)]) = (.ok (), b) := by rw [hb]; rfl
        have hbl : b.length = a1.length + 2 := by rw [hb]; simp
        have hbn : b[a1.length]? = some {} := by
          rw [hb, List.getElem?_append_left (by simp), List.getElem?_append_right (by simp)]
          simp
        rw [M.bind_ok hp, M.bind_ok (M.get_run _), M.bind_ok (change_ok hbn _)] at h
        cases h
        have hnl : (b.set a1.length (({} : State).defineNext op (some key) (b.length - 1) follow)).length = a1.length + 2 := by
          simp [hbl]
        have hold : ∀ k, k < a1.length → (b.set a1.length (({} : State).defineNext op (some key) (b.length - 1) follow))[k]? =
            (a1.set last { st with link := some a1.length })[k]? := by
          intro k hk
          rw [List.getElem?_set_ne (by omega), hb, List.append_assoc, List.getElem?_append_left (by simpa using hk)]
        refine ⟨by rw [hnl]; omega, ?_⟩
        have h6 := h5 (b.set a1.length (({} : State).defineNext op (some key) (b.length - 1) follow)) a1.length
          (by rw [hold _ hlast, h3]; simp [hlast])
          (fun k hk hk' => by rw [hold k hk', List.getElem?_set_ne (by simpa using fun h => hk h.symm)])
          (a1.length + 2) (by omega) (({} : State).defineNext op (some key) (b.length - 1) follow)
          (by rw [List.getElem?_set_self (by omega)]) rfl rfl rfl (b.length - 1) rfl
        unfold define
        rw [M.bind_ok (M.get_run _)]
        simp only [Option.getD_some]
        rw [hnl, M.bind_ok h6]
        rfl

/-- The same step from the same state again. -/
theorem defineNext_again {a a' : Atm} {i j : Nat} {op : Op} {key : List Byte} {follow : Bool} (hi : a = [] → i = 0)
    (h : defineNext i op (some key) follow a = (.ok j, a')) : defineNext i op (some key) follow a' = (.ok j, a') := by
  rw [defineNext_eq] at h
  by_cases h0 : a.length = 0
  · rw [if_pos h0] at h
    obtain ⟨k1, k2⟩ := define_again (by simp) h
    rw [defineNext_eq, if_neg k1, hi (List.length_eq_zero_iff.1 h0)]
    exact k2
  · rw [if_neg h0] at h
    obtain ⟨k1, k2⟩ := define_again h0 h
    rw [defineNext_eq, if_neg k1]
    exact k2

end Atm

end TW.Path
