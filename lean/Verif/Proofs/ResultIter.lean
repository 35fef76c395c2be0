import Verif.Model.ResultIter
import Verif.Proofs.PathKeep

/-!
# Iterators on results: the results of an item, one after the other
-/

namespace TW.Path

open Spec

namespace Sel

/-- A selector at the end of the results of an item. -/
structure AtEnd (s : Sel) : Prop where
  key : s.key = none
  iter : s.scope.tokenTo ≤ s.iter
  follows : s.iter - s.scope.tokenTo < s.scope.followidx →
    ∃ t, s.follows[s.iter - s.scope.tokenTo]? = some t ∧ ¬t < s.scope.tokenFrom
  triggers : s.triggers = []

theorem fetchLoop_end (n : Nat) : ∀ {s t : Sel}, fetchLoop n s = (.ok 0, t) → AtEnd t := by
  induction n with
  | zero => intro s t h; cases h
  | succ n ih =>
    intro s t h
    have visit : ∀ i, (do
        let type ← matchToken i
        M.modify fun s => { s with iter := s.iter + 1 }
        if type = 0 then fetchLoop n else pure type : M Sel Int) s = (.ok 0, t) → AtEnd t := by
      intro i h
      cases h1 : matchToken i s with
      | mk r s1 =>
        cases r with
        | stop e => rw [M.bind_stop h1] at h; cases h
        | ok r =>
          rw [M.bind_ok h1, M.bind_ok (M.modify_run _ _)] at h
          by_cases hr : r = 0
          · rw [if_pos hr] at h
            exact ih h
          · rw [if_neg hr] at h
            exact absurd (Res.ok.inj (Prod.mk.inj h).1) hr
    have rest (h2 : s.scope.tokenTo ≤ s.iter)
        (h3 : s.iter - s.scope.tokenTo < s.scope.followidx →
          ∃ t, s.follows[s.iter - s.scope.tokenTo]? = some t ∧ ¬t < s.scope.tokenFrom) : (match s.triggers with
        | x :: ts => do
          M.modify fun s => { s with triggers := ts }
          if x = 0 then fetchLoop n else pure x
        | [] => do
          M.modify fun s => { s with key := none }
          pure 0 : M Sel Int) s = (.ok 0, t) → AtEnd t := by
      cases h4 : s.triggers with
      | nil =>
        intro h
        cases h
        exact ⟨rfl, h2, h3, h4⟩
      | cons x xs =>
        intro h
        change ((do
          M.modify fun s => { s with triggers := xs }
          if x = 0 then fetchLoop n else pure x : M Sel Int) s) = _ at h
        rw [M.bind_ok (M.modify_run _ _)] at h
        by_cases hr : x = 0
        · rw [if_pos hr] at h
          exact ih h
        · rw [if_neg hr] at h
          exact absurd (Res.ok.inj (Prod.mk.inj h).1) hr
    unfold fetchLoop at h
    rw [M.bind_ok (M.get_run _)] at h
    by_cases h1 : s.iter < s.scope.tokenTo
    · rw [if_pos h1] at h
      exact visit _ h
    · rw [if_neg h1] at h
      simp only [] at h
      by_cases h2 : s.iter - s.scope.tokenTo < s.scope.followidx
      · rw [if_pos h2] at h
        cases h3 : s.follows[s.iter - s.scope.tokenTo]? with
        | none => rw [h3] at h; cases h
        | some x =>
          rw [h3] at h
          simp only [] at h
          by_cases h4 : x < s.scope.tokenFrom
          · rw [if_pos h4] at h
            exact visit _ h
          · rw [if_neg h4] at h
            exact rest (by omega) (fun _ => ⟨x, h3, h4⟩) h
      · rw [if_neg h2] at h
        exact rest (by omega) (fun h => absurd h h2) h

theorem fetchLoop_atEnd {s : Sel} (h : AtEnd s) (n : Nat) : fetchLoop (n + 1) s = (.ok 0, s) := by
  have h0 : ({ s with key := none } : Sel) = s := by rw [← h.key]
  have rest : (match s.triggers with
      | x :: ts => do
        M.modify fun s => { s with triggers := ts }
        if x = 0 then fetchLoop n else pure x
      | [] => do
        M.modify fun s => { s with key := none }
        pure 0 : M Sel Int) s = (.ok 0, s) := by
    rw [h.triggers]
    show (Res.ok 0, ({ s with key := none } : Sel)) = _
    rw [h0]
  unfold fetchLoop
  rw [M.bind_ok (M.get_run _), if_neg (by have := h.iter; omega)]
  simp only []
  by_cases h2 : s.iter - s.scope.tokenTo < s.scope.followidx
  · obtain ⟨x, h3, h4⟩ := h.follows h2
    rw [if_pos h2, h3]
    simp only []
    rw [if_neg h4]
    exact rest
  · rw [if_neg h2]
    exact rest

/-- At the end of the results there are no more. -/
theorem fetch_again {n : Nat} {s t : Sel} (h : fetch n s = (.ok 0, t)) : fetch n t = (.ok 0, t) := by
  have key (t : Sel) (ht : t.key = none) (hm : ¬t.scope.mask.matches t.type = true) : fetch n t = (.ok 0, t) := by
    unfold fetch
    rw [M.bind_ok (M.get_run _), if_neg hm]
    show (Res.ok 0, ({ t with key := none } : Sel)) = _
    rw [← ht]
  unfold fetch at h
  rw [M.bind_ok (M.get_run _)] at h
  by_cases hm : s.scope.mask.matches s.type = true
  · rw [if_pos hm] at h
    have h1 := fetchLoop_end n h
    by_cases hm' : t.scope.mask.matches t.type = true
    · unfold fetch
      rw [M.bind_ok (M.get_run _), if_pos hm']
      cases n with
      | zero => cases h
      | succ n => exact fetchLoop_atEnd h1 n
    · exact key t h1.key hm'
  · rw [if_neg hm] at h
    cases h
    exact key _ rfl hm

/-- The results fetched one after the other. -/
inductive Fetched (n : Nat) : Sel → List Int → Sel → Prop where
  | done {s t : Sel} : fetch n s = (.ok 0, t) → Fetched n s [] t
  | more {s s1 t : Sel} {e : Int} {es : List Int} : fetch n s = (.ok e, s1) → Fetched n s1 es t → Fetched n s (e :: es) t

theorem walk_fetched {n : Nat} : ∀ (k : Nat) {e : Int} {s0 s t : Sel} {es : List Int}, fetch n s0 = (.ok e, s) →
    walk n false k e s = (.ok es, t) → Fetched n s0 es t := by
  intro k
  induction k with
  | zero => intro e s0 s t es _ h; cases h
  | succ k ih =>
    intro e s0 s t es h0 h
    unfold walk at h
    by_cases he : e = 0
    · rw [if_pos he] at h
      cases h
      subst he
      exact .done h0
    · rw [if_neg he] at h
      cases h1 : fetch n s with
      | mk r s1 =>
        cases r with
        | stop x => rw [M.bind_stop h1] at h; cases h
        | ok e' =>
          rw [M.bind_ok h1] at h
          simp only [Bool.false_eq_true, if_false] at h
          cases h2 : walk n false k e' s1 with
          | mk r s2 =>
            cases r with
            | stop x => rw [show (do let es ← walk n false k e'; pure (e :: es) : M Sel _) s1 = _ from M.bind_stop h2] at h; cases h
            | ok es' =>
              rw [show (do let es ← walk n false k e'; pure (e :: es) : M Sel _) s1 = _ from M.bind_ok h2] at h
              cases h
              exact .more h0 (ih h1 h2)

theorem push_fetched {n : Nat} {type : ElementType} {key : List Byte} {s s' : Sel} {es : List Int}
    (h : push n false type key s = (.ok es, s')) : ∃ t, Fetched n (initElement type key s) es t ∧ s' = closeElement t := by
  unfold push at h
  rw [M.bind_ok (M.modify_run _ _)] at h
  cases h2 : fetch n (initElement type key s) with
  | mk x s1 =>
    cases x with
    | stop e => rw [M.bind_stop h2] at h; cases h
    | ok e =>
      rw [M.bind_ok h2] at h
      cases h4 : walk n false n e s1 with
      | mk y s2 =>
        cases y with
        | stop e => rw [M.bind_stop h4] at h; cases h
        | ok u =>
          rw [M.bind_ok h4] at h
          cases h
          exact ⟨s2, walk_fetched n h2 h4, rfl⟩

theorem fetched_end {n : Nat} {s t : Sel} {es : List Int} (h : Fetched n s es t) : fetch n t = (.ok 0, t) := by
  induction h with
  | done h => exact fetch_again h
  | more _ _ ih => exact ih

theorem fetch_type {n : Nat} {s t : Sel} {r : Res Int} (h : fetch n s = (r, t)) : t.type = s.type := by
  have := (keep_fetch n s).type
  rw [h] at this
  exact this

theorem close_other {s : Sel} (h : isClose s.type = false) : closeElement s = s := by
  unfold closeElement
  rw [if_neg]
  intro h'
  unfold isClose at h
  rw [decide_eq_false_iff_not] at h
  exact h h'

end Sel

namespace Client

open Sel

/-- The iterators of the model for those of the specification. -/
def asIter (i : Int × Bool) : ResIter := ⟨i.1, i.2⟩

/-- Client and specification: while the results of an item are walked through; `t` is the selector at their end. -/
structure Rel (n : Nat) (type : ElementType) (t : Sel) (c : Client) (w : Walk) : Prop where
  its : c.its = fun k => (w.its k).map asIter
  last : fetch n t = (.ok 0, t)
  typ : t.type = type
  closed : w.closed = true → w.ended = true ∧ isClose type = true ∧ c.sel = closeElement t
  open_ : w.closed = false → c.sel.type = type
  walk : w.closed = false → w.ended = false → Fetched n c.sel w.rest t
  ended : w.closed = false → w.ended = true → w.rest = [] ∧ c.sel = t

variable {n : Nat} {type : ElementType} {t : Sel} {c : Client} {w : Walk}

theorem Rel.set (h : Rel n type t c w) (k : Nat) (i : Option (Int × Bool)) :
    Rel n type t { c with its := fun j => if j = k then i.map asIter else c.its j } { w with its := w.its.set k i } := by
  refine ⟨?_, h.last, h.typ, h.closed, h.open_, h.walk, h.ended⟩
  funext j
  show (if j = k then i.map asIter else c.its j) = _
  rw [h.its]
  show _ = ((if j = k then i else w.its j).map asIter)
  split <;> rfl

theorem Rel.get (h : Rel n type t c w) {k : Nat} {i : Int × Bool} (hk : w.its k = some i) : Client.get k c = (.ok (asIter i), c) := by
  unfold Client.get
  rw [h.its]
  simp only [hk, Option.map_some]

theorem Rel.free (h : Rel n type t c w) {k : Nat} (hk : w.its k = none) (i : ResIter) :
    create k i c = (.ok (), { c with its := fun j => if j = k then some i else c.its j }) := by
  unfold create
  rw [M.bind_ok (M.get_run _), if_pos (by rw [h.its]; simp only [hk, Option.map_none])]
  rfl

theorem Rel.next (h : Rel n type t c w) (hc : w.closed = false) :
    ∃ s, fetch n c.sel = (.ok w.next.1, s) ∧ Rel n type t { c with sel := s } w.next.2 := by
  have hn : ∀ e s, fetch n c.sel = (.ok e, s) → s.type = type := by
    intro e s h1
    have := (keep_fetch n c.sel).type
    rw [h1] at this
    exact this.trans (h.open_ hc)
  cases he : w.ended with
  | true =>
    obtain ⟨h1, h2⟩ := h.ended hc he
    have hw : w.next = (0, w) := by
      obtain ⟨rest, ended, closed, its⟩ := w
      simp only at h1 he
      subst h1 he
      rfl
    rw [hw]
    refine ⟨t, by rw [h2]; exact h.last, ⟨h.its, h.last, h.typ, fun h' => ?_, fun _ => h.typ, fun _ h' => ?_, fun _ _ => ⟨h1, rfl⟩⟩⟩
    · rw [hc] at h'; cases h'
    · rw [he] at h'; cases h'
  | false =>
    have h1 := h.walk hc he
    generalize hr : w.rest = r at h1
    cases h1 with
    | done h1 =>
      have hw : w.next = (0, { w with ended := true }) := by
        unfold Walk.next
        rw [hr]
      rw [hw]
      refine ⟨t, h1, ⟨h.its, h.last, h.typ, fun h' => ?_, fun _ => h.typ, fun _ h' => ?_, fun _ _ => ⟨hr, rfl⟩⟩⟩
      · exact absurd (hc.symm.trans h') (by decide)
      · cases h'
    | @more _ _ _ e es h1 h2 =>
      have hw : w.next = (e, { w with rest := es }) := by
        unfold Walk.next
        rw [hr]
      rw [hw]
      refine ⟨_, h1, ⟨h.its, h.last, h.typ, fun h' => ?_, fun _ => hn _ _ h1, fun _ _ => h2, fun _ h' => ?_⟩⟩
      · exact absurd (hc.symm.trans h') (by decide)
      · exact absurd (he.symm.trans h') (by decide)

theorem next_closed (w : Walk) : w.next.2.closed = w.closed ∧ w.next.2.its = w.its := by
  unfold Walk.next
  split <;> exact ⟨rfl, rfl⟩

theorem Rel.skip (h : Rel n type t c w) {k : Nat} {i : Int × Bool} (hk : w.its k = some i) {w' : Walk} (hw : w.step k i = some w') :
    ∃ c', Client.skip n k c = (.ok (), c') ∧ Rel n type t c' w' := by
  unfold Walk.step at hw
  unfold Client.skip
  rw [M.bind_ok (h.get hk)]
  obtain ⟨e, b⟩ := i
  cases b with
  | false =>
    cases hw
    exact ⟨_, rfl, h.set k (some (0, false))⟩
  | true =>
    simp only [if_true] at hw
    cases hc : w.closed with
    | true => rw [hc] at hw; cases hw
    | false =>
      rw [hc] at hw
      cases hw
      obtain ⟨s, h1, h2⟩ := h.next hc
      have h3 : onSel (fetch n) c = (.ok w.next.1, { c with sel := s }) := by
        unfold onSel M.zoom
        rw [h1]
      refine ⟨_, ?_, h2.set k (some (w.next.1, true))⟩
      show (do
        let e ← onSel (fetch n)
        store k (some { asIter (e, true) with element := e }) : M Client Unit) c = _
      rw [M.bind_ok h3]
      rfl

theorem Rel.release (h : Rel n type t c w) (i : Int × Bool) {w' : Walk}
    (hw : (if i.2 then w.release (isClose type) else some w) = some w') :
    ∃ c', Client.release (asIter i) c = (.ok (), c') ∧ Rel n type t c' w' := by
  obtain ⟨e, b⟩ := i
  cases b with
  | false =>
    cases hw
    exact ⟨_, rfl, h⟩
  | true =>
    simp only [if_true] at hw
    refine ⟨{ c with sel := closeElement c.sel }, rfl, ?_⟩
    unfold Walk.release at hw
    cases hi : isClose type with
    | false =>
      rw [hi] at hw
      cases hw
      have hc : w.closed = false := by
        cases hc : w.closed with
        | false => rfl
        | true => have := (h.closed hc).2.1; rw [hi] at this; cases this
      have : closeElement c.sel = c.sel := close_other (by rw [h.open_ hc]; exact hi)
      rw [this]
      exact h
    | true =>
      rw [hi] at hw
      simp only [if_true] at hw
      split at hw
      case isFalse => cases hw
      case isTrue h1 =>
        cases hw
        have hc : w.closed = false := by
          cases hc : w.closed with
          | false => rfl
          | true => exact absurd hc h1.2
        have h2 := h.ended hc h1.1
        exact ⟨h.its, h.last, h.typ, fun _ => ⟨h1.1, hi, by rw [← h2.2]⟩, (fun h => nomatch h), (fun h => nomatch h), (fun h => nomatch h)⟩

theorem Rel.exec (h : Rel n type t c w) {o : IterOp} {x : List Seen} {w' : Walk} (ho : w.op (isClose type) o = some (x, w')) :
    ∃ c', Client.exec n o c = (.ok x, c') ∧ Rel n type t c' w' := by
  cases o with
  | none k =>
    rw [Walk.op] at ho
    split at ho
    case isFalse => cases ho
    case isTrue hk =>
      cases ho
      refine ⟨_, ?_, h.set k (some (0, false))⟩
      rw [Client.exec]
      rw [M.bind_ok (h.free hk ⟨0, false⟩)]
      rfl
  | copy j k =>
    rw [Walk.op] at ho
    cases hj : w.its j with
    | none => rw [hj] at ho; cases ho
    | some i =>
      rw [hj] at ho
      simp only [] at ho
      split at ho
      case isFalse => cases ho
      case isTrue hk =>
        cases ho
        refine ⟨_, ?_, h.set k (some i)⟩
        rw [Client.exec]
        rw [M.bind_ok (h.get hj), M.bind_ok (h.free hk _)]
        rfl
  | assign j k =>
    rw [Walk.op] at ho
    cases hj : w.its j with
    | none => rw [hj] at ho; cases ho
    | some i =>
      rw [hj] at ho
      simp only [] at ho
      cases hk : w.its k with
      | none => rw [if_pos hk] at ho; cases ho
      | some i' =>
        rw [if_neg (by rw [hk]; exact fun h => nomatch h)] at ho
        cases ho
        refine ⟨_, ?_, h.set k (some i)⟩
        rw [Client.exec]
        rw [M.bind_ok (h.get hj), M.bind_ok (h.get hk)]
        rfl
  | pre k =>
    rw [Walk.op] at ho
    cases hk : w.its k with
    | none => rw [hk] at ho; cases ho
    | some i =>
      rw [hk] at ho
      obtain ⟨w1, h1, h2⟩ := Option.map_eq_some_iff.1 ho
      cases h2
      obtain ⟨c', h3, h4⟩ := h.skip hk h1
      refine ⟨c', ?_, h4⟩
      rw [Client.exec]
      rw [M.bind_ok h3]
      rfl
  | post k =>
    rw [Walk.op] at ho
    cases hk : w.its k with
    | none => rw [hk] at ho; cases ho
    | some i =>
      rw [hk] at ho
      obtain ⟨w1, h1, h2⟩ := Option.bind_eq_some_iff.1 ho
      obtain ⟨w2, h3, h4⟩ := Option.map_eq_some_iff.1 h2
      cases h4
      obtain ⟨c1, h5, h6⟩ := h.skip hk h1
      obtain ⟨c2, h7, h8⟩ := h6.release i h3
      refine ⟨c2, ?_, h8⟩
      rw [Client.exec]
      rw [M.bind_ok (h.get hk), M.bind_ok h5, M.bind_ok h7]
      rfl
  | read k =>
    rw [Walk.op] at ho
    cases hk : w.its k with
    | none => rw [hk] at ho; cases ho
    | some i =>
      rw [hk] at ho
      cases ho
      refine ⟨c, ?_, h⟩
      rw [Client.exec]
      rw [M.bind_ok (h.get hk)]
      rfl
  | equal j k =>
    rw [Walk.op] at ho
    cases hj : w.its j with
    | none => rw [hj] at ho; cases ho
    | some i =>
      cases hk : w.its k with
      | none => rw [hj, hk] at ho; cases ho
      | some i' =>
        rw [hj, hk] at ho
        cases ho
        refine ⟨c, ?_, h⟩
        rw [Client.exec]
        rw [M.bind_ok (h.get hj), M.bind_ok (h.get hk)]
        rfl
  | destroy k =>
    rw [Walk.op] at ho
    cases hk : w.its k with
    | none => rw [hk] at ho; cases ho
    | some i =>
      rw [hk] at ho
      obtain ⟨w1, h1, h2⟩ := Option.map_eq_some_iff.1 ho
      cases h2
      have h3 := h.set k none
      have h4 : (if i.2 then ({ w with its := w.its.set k none } : Walk).release (isClose type) else some { w with its := w.its.set k none }) =
          some { w1 with its := w1.its.set k none } := by
        cases hb : i.2 with
        | false =>
          rw [hb] at h1
          simp only [Bool.false_eq_true, if_false, Option.some.injEq] at h1 ⊢
          rw [← h1]
        | true =>
          rw [hb] at h1
          simp only [if_true] at h1 ⊢
          unfold Walk.release at h1 ⊢
          cases hi : isClose type with
          | false =>
            rw [hi] at h1
            simp only [Bool.false_eq_true, if_false, Option.some.injEq] at h1 ⊢
            rw [← h1]
          | true =>
            rw [hi] at h1
            simp only [if_true] at h1 ⊢
            by_cases hw : w.ended = true ∧ ¬w.closed = true
            · rw [if_pos hw] at h1 ⊢
              cases h1
              rfl
            · rw [if_neg hw] at h1
              cases h1
      obtain ⟨c', h5, h6⟩ := h3.release i h4
      refine ⟨c', ?_, h6⟩
      rw [Client.exec]
      have h7 : store k none c = (.ok (), { c with its := fun j => if j = k then (none : Option (Int × Bool)).map asIter else c.its j }) := rfl
      rw [M.bind_ok (h.get hk), M.bind_ok h7, M.bind_ok h5]
      rfl

theorem Rel.execs : ∀ {os : List IterOp} {c : Client} {w : Walk} (_ : Rel n type t c w) {x : List Seen} {w' : Walk},
    w.ops (isClose type) os = some (x, w') → ∃ c', Client.execs n os c = (.ok x, c') ∧ Rel n type t c' w' := by
  intro os
  induction os with
  | nil =>
    intro c w h x w' ho
    cases ho
    exact ⟨c, rfl, h⟩
  | cons o os ih =>
    intro c w h x w' ho
    rw [Walk.ops] at ho
    cases h1 : w.op (isClose type) o with
    | none => rw [h1] at ho; cases ho
    | some y =>
      obtain ⟨x1, w1⟩ := y
      rw [h1] at ho
      obtain ⟨⟨x2, w2⟩, h2, h3⟩ := Option.map_eq_some_iff.1 ho
      cases h3
      obtain ⟨c1, h4, h5⟩ := h.exec h1
      obtain ⟨c2, h6, h7⟩ := ih h5 h2
      refine ⟨c2, ?_, h7⟩
      rw [Client.execs]
      rw [M.bind_ok h4, M.bind_ok h6]
      rfl

/-- One item. -/
theorem item_run {key : List Byte} {s s' : Sel} {es : List Int} (hp : Sel.push n false type key s = (.ok es, s')) {its its' : Iterators}
    {k : Nat} {os : List IterOp} {x : List Seen} (hw : walkItem (isClose type) es k os its = some (x, its')) :
    ∃ c, Client.push n type key k ⟨s, fun j => (its j).map asIter⟩ = (.ok (), c) ∧
      Client.execs n os c = (.ok x, ⟨s', fun j => (its' j).map asIter⟩) := by
  obtain ⟨t, h1, rfl⟩ := push_fetched hp
  unfold walkItem at hw
  split at hw
  case isFalse => cases hw
  case isTrue hk =>
    simp only [] at hw
    have ht : t.type = type := by
      have : ∀ {s t : Sel} {es : List Int}, Fetched n s es t → t.type = s.type := by
        intro s t es h
        induction h with
        | done h => exact fetch_type h
        | more h _ ih => exact ih.trans (fetch_type h)
      exact (this h1).trans (init_type ..)
    have h0 : Rel n type t ⟨initElement type key s, fun j => (its j).map asIter⟩ { rest := es, ended := false, closed := false, its } :=
      ⟨rfl, fetched_end h1, ht, (fun h => nomatch h), fun _ => init_type .., fun _ _ => h1, (fun _ h => nomatch h)⟩
    have h2 := h0.set k (some (0, true))
    have hs : ({ rest := es, ended := false, closed := false, its := its.set k (some (0, true)) } : Walk).step k (0, true) =
        some { (Walk.next { rest := es, ended := false, closed := false, its }).2 with
          its := its.set k (some ((Walk.next { rest := es, ended := false, closed := false, its }).1, true)) } := by
      unfold Walk.step
      simp only [if_true]
      have hset : ∀ e, (its.set k (some (0, true))).set k e = its.set k e := by
        intro e
        funext j
        unfold Iterators.set
        split <;> rfl
      cases es <;> simp [Walk.next, hset]
    obtain ⟨c, h3, h4⟩ := h2.skip (show its.set k (some (0, true)) k = some (0, true) from if_pos rfl) hs
    refine ⟨c, ?_, ?_⟩
    · unfold Client.push
      have h5 : onSel (M.modify (initElement type key)) ⟨s, fun j => (its j).map asIter⟩ =
        (.ok (), ⟨initElement type key s, fun j => (its j).map asIter⟩) := rfl
      rw [M.bind_ok h5, M.bind_ok (h0.free hk _)]
      exact h3
    · split at hw
      case h_2 => cases hw
      case h_1 y w' ho =>
        split at hw
        case isFalse => cases hw
        case isTrue hf =>
          cases hw
          obtain ⟨c', h5, h6⟩ := h4.execs ho
          rw [h5]
          congr 1
          have h7 : c'.sel = closeElement t := by
            cases hc : w'.closed with
            | true => exact (h6.closed hc).2.2
            | false =>
              rw [(h6.ended hc hf.1).2, close_other]
              rw [ht]
              cases hi : isClose type with
              | false => rfl
              | true => have := hf.2 hi; rw [hc] at this; cases this
          obtain ⟨cs, ci⟩ := c'
          have h8 := h6.its
          simp only at h7 h8
          rw [h7, h8]

/-- All items. -/
theorem items_run : ∀ {items : List (ElementType × List Byte)} {s s' : Sel} {rss : List (List Int)}
    (_ : Sel.feed n items s = (.ok rss, s')) {cs : List (Nat × List IterOp)} {its its' : Iterators} {x : List (List Seen)}
    (_ : walkItems ((items.map (·.1)).zip rss) cs its = some (x, its')),
    Client.run n items cs ⟨s, fun j => (its j).map asIter⟩ = (.ok x, ⟨s', fun j => (its' j).map asIter⟩) := by
  intro items
  induction items with
  | nil =>
    intro s s' rss h cs its its' x hw
    cases h
    cases cs with
    | nil => cases hw; rfl
    | cons c cs => cases hw
  | cons a items ih =>
    obtain ⟨type, key⟩ := a
    intro s s' rss h cs its its' x hw
    rw [Sel.feed] at h
    cases h1 : Sel.push n false type key s with
    | mk r s1 =>
      cases r with
      | stop e => rw [M.bind_stop h1] at h; cases h
      | ok es =>
        rw [M.bind_ok h1] at h
        cases h2 : Sel.feed n items s1 with
        | mk r s2 =>
          cases r with
          | stop e => rw [M.bind_stop h2] at h; cases h
          | ok ess =>
            rw [M.bind_ok h2] at h
            cases h
            cases cs with
            | nil => cases hw
            | cons c cs =>
              obtain ⟨k, os⟩ := c
              rw [List.map_cons, List.zip_cons_cons, walkItems] at hw
              cases h3 : walkItem (isClose type) es k os its with
              | none => rw [h3] at hw; cases hw
              | some y =>
                obtain ⟨x1, its1⟩ := y
                rw [h3] at hw
                obtain ⟨⟨x2, its2⟩, h4, h5⟩ := Option.map_eq_some_iff.1 hw
                cases h5
                obtain ⟨c, h6, h7⟩ := item_run h1 h3
                rw [Client.run, M.bind_ok h6, M.bind_ok h7, M.bind_ok (ih h2 h4)]
                rfl

end Client

end TW.Path
