import Verif.Proofs.PathCopies
import Verif.Props.PathScopes

/-!
# Property C80: copies of selectors
-/

namespace TW

open Spec Spec.Path TW.Path

/-- The results of a copy of the selector, made before the first item. -/
def CopySelects (e : Enc) (n : Nat) (defs : List (List PElem.Call)) (items : List Item) (rss : List (List Int)) : Prop :=
  ∃ a s, build e n defs [] = (.ok (), a) ∧ Sel.mk' a = .ok s ∧ ∃ N s', ∀ m, N ≤ m → Sel.feed m items s.copy = (.ok rss, s')

/-- An automaton where all steps ask for tags. -/
def TagsOnly (a : Atm) : Prop := ∀ st ∈ a, st.core.mask = {} ∨ st.core.mask = ({} : Mask).seekop .OpenTag

/-- An operation that keeps it so. -/
def KeepsTags {α : Type} (f : M Atm α) : Prop := ∀ a, TagsOnly a → TagsOnly (f a).2

theorem KeepsTags.pure {α : Type} (x : α) : KeepsTags (pure x : M Atm α) := fun _ h => h
theorem KeepsTags.stop {α : Type} (e : Stop) : KeepsTags (M.stop e : M Atm α) := fun _ h => h
theorem KeepsTags.get : KeepsTags (M.get : M Atm Atm) := fun _ h => h

theorem KeepsTags.bind {α β : Type} {f : M Atm α} {g : α → M Atm β} (h : KeepsTags f) (k : ∀ x, KeepsTags (g x)) :
    KeepsTags (f >>= g) := by
  intro a ha
  have h := h a ha
  cases hx : f a with
  | mk r b =>
    rw [hx] at h
    cases r with
    | ok x => rw [M.bind_ok hx]; exact k x b h
    | stop e => rw [M.bind_stop hx]; exact h

theorem KeepsTags.ite {α : Type} {c : Prop} [Decidable c] {x y : M Atm α} (h : KeepsTags x) (k : KeepsTags y) :
    KeepsTags (if c then x else y) := by
  split
  · exact h
  · exact k

theorem tags_stateAt (i : Nat) : KeepsTags (Atm.stateAt i) := by
  intro a h
  unfold Atm.stateAt
  cases a[i]? <;> exact h

theorem tags_change (i : Nat) {g : State → State}
    (hg : ∀ st, (st.core.mask = {} ∨ st.core.mask = ({} : Mask).seekop .OpenTag) →
      (g st).core.mask = {} ∨ (g st).core.mask = ({} : Mask).seekop .OpenTag) : KeepsTags (Atm.change i g) := by
  intro a h
  unfold Atm.change
  cases hi : a[i]? with
  | none => exact h
  | some st =>
    intro x hx
    rcases List.mem_or_eq_of_mem_set hx with hx | rfl
    · exact h x hx
    · exact hg st (h st (List.mem_of_getElem? hi))

theorem tags_push : KeepsTags (Atm.push {}) := by
  intro a h x hx
  have hx : x ∈ a ++ [({} : State)] := hx
  rw [List.mem_append, List.mem_singleton] at hx
  rcases hx with hx | rfl
  · exact h x hx
  · exact .inl rfl

theorem tags_seekStep (mask : Mask) (key : List Byte) (follow : Bool) (n : Nat) : ∀ i, KeepsTags (Atm.seekStep mask key follow n i) := by
  induction n with
  | zero => exact fun _ => .stop _
  | succ n ih =>
    intro i
    refine (tags_stateAt i).bind fun st => .ite ?_ ?_
    · cases st.next with
      | none => exact .stop _
      | some j => exact .pure _
    · cases st.link with
      | none => exact .pure _
      | some l => exact ih l

theorem tags_lastLink (n : Nat) : ∀ i, KeepsTags (Atm.lastLink n i) := by
  induction n with
  | zero => exact fun _ => .stop _
  | succ n ih =>
    intro i
    refine (tags_stateAt i).bind fun st => ?_
    cases st.link with
    | none => exact .pure _
    | some l => exact ih l

theorem tags_freeState (i : Nat) : KeepsTags (Atm.freeState i) := by
  refine (tags_stateAt i).bind fun st => .ite ?_ (.pure i)
  refine KeepsTags.get.bind fun a => (tags_lastLink _ i).bind fun l => ?_
  refine KeepsTags.bind (tags_change l ?_) fun _ => tags_push.bind fun _ => .pure _
  exact fun _ h => h

theorem tags_defineNext (i : Nat) (key : Option (List Byte)) (follow : Bool) :
    KeepsTags (Atm.defineNext i .OpenTag key follow) := by
  unfold Atm.defineNext
  refine KeepsTags.get.bind fun a => ?_
  refine .ite (tags_push.bind fun _ => (KeepsTags.pure _).bind fun i => ?_) ((KeepsTags.pure _).bind fun i => ?_)
  all_goals
    refine KeepsTags.get.bind fun a => ?_
    refine (tags_seekStep _ _ _ _ i).bind fun r => ?_
    obtain ⟨found, last⟩ := r
    cases found with
    | some j => exact .pure j
    | none =>
      refine (tags_freeState last).bind fun i => ?_
      refine tags_push.bind fun _ => ?_
      refine KeepsTags.get.bind fun a => ?_
      refine (tags_change i (fun st h => .inr ?_)).bind fun _ => .pure _
      show st.core.mask.seekop .OpenTag = _
      rcases h with h | h <;> rw [h] <;> decide

theorem tags_defineOutput (i : Nat) (ty : Int) (follow : Bool) (s t : Int) :
    KeepsTags (Atm.defineOutput i {} ty follow s t) := by
  unfold Atm.defineOutput
  refine KeepsTags.get.bind fun a => ?_
  refine .ite (tags_push.bind fun _ => (KeepsTags.pure _).bind fun i => ?_) ((KeepsTags.pure _).bind fun i => ?_)
  all_goals
    refine KeepsTags.get.bind fun a => ?_
    refine .ite (.stop _) ?_
    exact (tags_freeState i).bind fun i => (tags_change i (fun st h => .inl rfl)).bind fun _ => .pure _

/-- The calls for elements. -/
def TagCall : PElem.Call → Prop
  | .follow => True
  | .tag _ => True
  | .assign _ => True
  | _ => False

theorem tags_calls (e : Enc) (n : Nat) (cs : List PElem.Call) (hc : ∀ c ∈ cs, TagCall c) : ∀ p : PElem, p.print = {} →
    KeepsTags (PElem.calls e n p cs) := by
  induction cs with
  | nil => exact fun p _ => .pure p
  | cons c cs ih =>
    intro p hp
    have ih := ih fun c k => hc c (List.mem_cons_of_mem _ k)
    have hc := hc c (List.mem_cons_self ..)
    unfold PElem.calls
    have step : ∀ (f : M Atm PElem), KeepsTags f → (∀ a q a', f a = (.ok q, a') → q.print = {}) →
        KeepsTags (f >>= fun p => PElem.calls e n p cs) := by
      intro f h1 h2 a ha
      have k := h1 a ha
      cases hx : f a with
      | mk r b =>
        rw [hx] at k
        cases r with
        | ok q => rw [M.bind_ok hx]; exact ih q (h2 a q b hx) b k
        | stop e => rw [M.bind_stop hx]; exact k
    cases c with
    | follow =>
      refine step _ (.pure _) fun a q a' h => ?_
      cases h
      exact hp
    | tag name =>
      have sel : ∀ key, KeepsTags (PElem.select .OpenTag key p) ∧
          ∀ a q a', PElem.select .OpenTag key p a = (.ok q, a') → q.print = {} := by
        intro key
        refine ⟨(tags_defineNext _ _ _).bind fun i => .pure _, fun a q a' h => ?_⟩
        unfold PElem.select at h
        cases hx : Atm.defineNext p.stateidx .OpenTag key p.follow a with
        | mk r b =>
          cases r with
          | stop e => rw [M.bind_stop hx] at h; cases h
          | ok i => rw [M.bind_ok hx] at h; cases h; exact hp
      have : PElem.call e n p (.tag name) = PElem.doSelect e n .OpenTag name p := rfl
      rw [this]
      cases name with
      | none => exact step _ (sel none).1 (sel none).2
      | some nm =>
        unfold PElem.doSelect
        simp only []
        cases nameKey e n nm with
        | stop er => exact step _ (.stop _) fun a q a' h => by cases h
        | ok key => exact step _ (sel _).1 (sel _).2
    | assign ty =>
      refine step (p.push ty) ?_ fun a q a' h => ?_
      · unfold PElem.push
        rw [hp]
        exact (tags_defineOutput _ _ _ _ _).bind fun i => .pure _
      · unfold PElem.push at h
        cases hx : Atm.defineOutput p.stateidx p.print ty p.follow p.start p.stop a with
        | mk r b =>
          cases r with
          | stop e => rw [M.bind_stop hx] at h; cases h
          | ok i => rw [M.bind_ok hx] at h; cases h; exact hp
    | closeTag => exact hc.elim
    | «attribute» _ => exact hc.elim
    | ifAttribute _ _ => exact hc.elim
    | content => exact hc.elim
    | to _ => exact hc.elim
    | from' _ => exact hc.elim
    | range _ _ => exact hc.elim
    | index _ => exact hc.elim

theorem tags_build (e : Enc) (n : Nat) (defs : List (List PElem.Call)) (h : ∀ cs ∈ defs, ∀ c ∈ cs, TagCall c) :
    KeepsTags (build e n defs) := by
  induction defs with
  | nil => exact .pure ()
  | cons cs defs ih =>
    unfold build
    exact (tags_calls e n cs (h cs (List.mem_cons_self ..)) {} rfl).bind fun _ =>
      ih fun cs k => h cs (List.mem_cons_of_mem _ k)

/-- A selector of which the root scope waits for nothing else than open tags. -/
structure Fresh (s : Sel) : Prop where
  mask : s.scope.mask.open' = ({} : Mask).open'
  follow : s.scope.followMask.open' = ({} : Mask).open'
  start : s.scope.tokenFrom = 0 ∧ s.scope.tokenTo = 0 ∧ s.scope.followidx = 0
  type : s.type = .Content
  stk : s.scopestk = []

theorem Fresh.activate {s : Sel} (h : Fresh s) {st : State} (hs : st.core.mask = {} ∨ st.core.mask = ({} : Mask).seekop .OpenTag)
    (i : Nat) : Fresh (Sel.activate st i s) := by
  have join : ∀ {m : Mask}, m.open' = ({} : Mask).open' → (m.join st.core.mask).open' = ({} : Mask).open' := by
    intro m hm
    rw [← Mask.open_join, hm]
    rcases hs with h | h <;> rw [h] <;> decide
  unfold Sel.activate
  simp only []
  by_cases h1 : st.core.mask.empty = true ∧ st.core.typeidx ≠ 0
  · rw [if_pos h1]
    exact ⟨join h.mask, h.follow, h.start, h.type, h.stk⟩
  · rw [if_neg h1]
    cases st.core.follow
    · exact ⟨join h.mask, h.follow, h.start, h.type, h.stk⟩
    · exact ⟨join h.mask, join h.follow, h.start, h.type, h.stk⟩

theorem Fresh.expand {n : Nat} : ∀ {i : Option Nat} {s : Sel}, Fresh s → TagsOnly s.atm → Fresh (Sel.expand n i s).2 := by
  induction n with
  | zero =>
    intro i s h _
    cases i <;> exact h
  | succ n ih =>
    intro i s h ht
    cases i with
    | none => exact h
    | some i =>
      unfold Sel.expand
      cases hi : s.atm[i]? with
      | none =>
        have : Sel.stateAt i s = (.stop .ub, s) := by unfold Sel.stateAt; rw [hi]
        rw [M.bind_stop this]
        exact h
      | some st =>
        have : Sel.stateAt i s = (.ok st, s) := by unfold Sel.stateAt; rw [hi]
        rw [M.bind_ok this, M.bind_ok (M.modify_run _ _)]
        refine ih (h.activate (ht st (List.mem_of_getElem? hi)) i) ?_
        rw [(Sel.keep_activate st i s).atm]
        exact ht

theorem fresh_mk {a : Atm} (h : TagsOnly a) {s : Sel} (hs : Sel.mk' a = .ok s) : Fresh s := by
  unfold Sel.mk' at hs
  have k := Fresh.expand (n := a.length + 1) (i := if 0 < a.length then some 0 else none) (s := { atm := a })
    ⟨rfl, rfl, ⟨rfl, rfl, rfl⟩, rfl, rfl⟩ h
  cases hx : Sel.expand (a.length + 1) (if 0 < a.length then some 0 else none) { atm := a } with
  | mk r s' =>
    rw [hx] at hs k
    cases r with
    | ok u => cases hs; exact k
    | stop e => cases hs

theorem Fresh.copy {s : Sel} (h : Fresh s) : s.rest.opened = s.copy.rest.opened := by
  obtain ⟨⟨m1, m2, m3, m4, m5⟩, k⟩ : { sc : Scope // s.scope = sc } := ⟨s.scope, rfl⟩
  have h1 := h.mask
  have h2 := h.follow
  have h3 := h.start
  rw [k] at h1 h2 h3
  simp only at h1 h2 h3
  obtain ⟨h3, h4, h5⟩ := h3
  subst h3 h4 h5
  have e : s.scope.open' = ({} : Scope).open' := by
    rw [k]
    unfold Scope.open'
    simp only [h1, h2]
  unfold Sel.rest Sel.copy Sel.opened
  simp only [e, h.type, h.stk]

/-- C80 (partial): a copy of a selector, made before the first item, reports for any stream without a header the same as the selector itself,
if the steps the automaton begins with ask for open tags only. -/
theorem C80_fresh_partial {s : Sel} (hf : Fresh s) (n : Nat) (items : List Item)
    (hi : ∀ it ∈ items, it.1 ≠ .HeaderStart) : (Sel.feed n items s.copy).1 = (Sel.feed n items s).1 :=
  (Sel.feed_alike n items hi hf.copy).symm

/-- C80 (partial): a copy of a selector for expressions for elements, made before the first item, reports for any stream without a
header what has to be reported (see `C43_descendants_partial`). -/
theorem C80_elements_partial {e : Enc} (he : ByteSet e) {n : Nat} (hn : 1024 < n) (xs : List Expr)
    (hx : ∀ x ∈ xs, x.steps ≠ [] ∧ ∀ s ∈ x.steps, ∀ nm, s.name = some nm → Name e nm) (items : List Item)
    (hi : ∀ it ∈ items, it.1 ≠ .HeaderStart) :
    ∃ rss, CopySelects e n (xs.map Expr.calls) items rss ∧ Selects e n (xs.map Expr.calls) items rss ∧
      ∀ ty, ty ≠ 0 → rss.map (·.count ty) = expected xs ty [] items := by
  have hh : ∀ (items : List Item) path, (∀ it ∈ items, it.1 ≠ .HeaderStart) → HeaderFree (xs.map (·.steps)) path items := by
    intro items
    induction items with
    | nil => exact fun _ _ => trivial
    | cons it items ih =>
      exact fun path h => ⟨fun k => (h it (List.mem_cons_self ..) k).elim, ih _ fun it k => h it (List.mem_cons_of_mem _ k)⟩
  obtain ⟨rss, h1, h2⟩ := C43_descendants_partial he hn xs hx items (hh items [] hi)
  refine ⟨rss, ?_, h1, h2⟩
  obtain ⟨a, s, h3, h4, N, s', h5⟩ := h1
  have ht : TagsOnly a := by
    have := tags_build e n (xs.map Expr.calls) (by
      intro cs hcs c hc
      obtain ⟨x, -, rfl⟩ := List.mem_map.1 hcs
      unfold Expr.calls at hc
      rw [List.mem_append, List.mem_flatMap] at hc
      rcases hc with ⟨st, -, hc⟩ | hc
      · rw [List.mem_append] at hc
        rcases hc with hc | hc
        · split at hc
          · rw [List.mem_singleton] at hc; subst hc; trivial
          · cases hc
        · rw [List.mem_singleton] at hc; subst hc; trivial
      · rw [List.mem_singleton] at hc; subst hc; trivial) [] (fun _ h => nomatch h)
    rw [h3] at this
    exact this
  have h6 := C80_fresh_partial (fresh_mk ht h4) N items hi
  rw [h5 N (Nat.le_refl N)] at h6
  cases h7 : Sel.feed N items s.copy with
  | mk r c =>
    rw [h7] at h6
    simp only at h6
    subst h6
    exact ⟨a, s, h3, h4, N, c, fun m hm => Sel.feed_mono hm items h7⟩

theorem init_rest {s c : Sel} (h : s.rest = c.rest) (type : ElementType) (key : List Byte) :
    Sel.initElement type key s = Sel.initElement type key c := by
  have f1 : s.atm = c.atm := by have k := congrArg Sel.atm h; exact k
  have f2 : s.scopestk = c.scopestk := by have k := congrArg Sel.scopestk h; exact k
  have f3 : s.follows = c.follows := by have k := congrArg Sel.follows h; exact k
  have f4 : s.triggers = c.triggers := by have k := congrArg Sel.triggers h; exact k
  have f5 : s.tokens = c.tokens := by have k := congrArg Sel.tokens h; exact k
  have f6 : s.type = c.type := by have k := congrArg Sel.type h; exact k
  have f7 : s.scope = c.scope := by have k := congrArg Sel.scope h; exact k
  unfold Sel.initElement
  simp only [f1, f2, f3, f4, f5, f6, f7]

theorem feed_rest {s c : Sel} (h : s.rest = c.rest) (n : Nat) (items : List Item) : (Sel.feed n items s).1 = (Sel.feed n items c).1 := by
  cases items with
  | nil => rfl
  | cons it items =>
    obtain ⟨type, key⟩ := it
    have : Sel.push n false type key s = Sel.push n false type key c := by
      unfold Sel.push
      rw [M.bind_ok (M.modify_run _ _), M.bind_ok (M.modify_run _ _), init_rest h]
    unfold Sel.feed
    rw [M.bind_run, M.bind_run, this]

/-- C80 (partial): for any automaton, a copy of a selector inside of an element, made when the close tag of the element comes next,
reports the same as the selector itself, for the close tag and any items behind it, if no expression waits for the close tag. -/
theorem C80_close_partial (s : Sel) (hs : s.scopestk ≠ []) {b : Item} (hb : b.1 = .CloseTag ∨ b.1 = .CloseTagIm)
    (hm : s.scope.mask.matches b.1 = false) (n : Nat) (items : List Item) :
    (Sel.feed n (b :: items) s.copy).1 = (Sel.feed n (b :: items) s).1 := by
  obtain ⟨type, key⟩ := b
  simp only at hb hm
  have ho : type ≠ .OpenTag := by rcases hb with rfl | rfl <;> exact fun h => nomatch h
  cases hk : s.scopestk with
  | nil => exact (hs hk).elim
  | cons sc stk =>
    have one : ∀ x : Sel, x.scope.mask.matches type = false → Sel.push n false type key x =
        match n with
        | 0 => (.stop .fuel, { Sel.initElement type key x with key := none })
        | _ + 1 => (.ok [], Sel.closeElement { Sel.initElement type key x with key := none }) := by
      intro x hx
      have e1 : (Sel.initElement type key x).type = type := Sel.init_type type key x
      have e2 : (Sel.initElement type key x).scope.mask = x.scope.mask := by
        unfold Sel.initElement
        simp only []
        rw [if_neg ho]
      have f : Sel.fetch n (Sel.initElement type key x) = (.ok 0, { Sel.initElement type key x with key := none }) := by
        unfold Sel.fetch
        rw [M.bind_ok (M.get_run _), if_neg (by rw [e1, e2, hx]; decide)]
        rfl
      unfold Sel.push
      rw [M.bind_ok (M.modify_run _ _), M.bind_ok f]
      cases n <;> rfl
    have hc : s.copy.scope.mask.matches type = false := by
      show ({} : Mask).matches type = false
      cases type <;> decide
    have i1 : (Sel.closeElement { Sel.initElement type key s with key := none }).rest =
        (Sel.closeElement { Sel.initElement type key s.copy with key := none }).rest := by
      unfold Sel.initElement
      simp only []
      rw [if_neg ho, if_neg ho]
      unfold Sel.closeElement Sel.copy Sel.rest
      simp only []
      rw [if_pos hb, if_pos hb, hk]
    have h1 := one s hm
    have h2 := one s.copy hc
    cases n with
    | zero =>
      unfold Sel.feed
      rw [M.bind_stop h1, M.bind_stop h2]
    | succ n =>
      unfold Sel.feed
      rw [M.bind_ok h1, M.bind_ok h2, M.bind_run, M.bind_run]
      have := feed_rest i1 (n + 1) items
      cases hx : Sel.feed (n + 1) items (Sel.closeElement { Sel.initElement type key s with key := none }) with
      | mk r s1 =>
        cases hy : Sel.feed (n + 1) items (Sel.closeElement { Sel.initElement type key s.copy with key := none }) with
        | mk r' c1 =>
          rw [hx, hy] at this
          simp only at this
          subst this
          cases r <;> rfl

theorem exists_fresh {o : Option Sel} {f : Sel → Res (List (List Int))} {r : Res (List (List Int))}
    (h : o.any (fun s => s.scope.mask.open' = ({} : Mask).open' && s.scope.followMask.open' = ({} : Mask).open' &&
      s.scope.tokenFrom = 0 && s.scope.tokenTo = 0 && s.scope.followidx = 0 && s.type = .Content && s.scopestk = [] &&
      f s = r) = true) : ∃ s, o = some s ∧ Fresh s ∧ f s = r := by
  cases o with
  | none => cases h
  | some s =>
    simp only [Option.any_some, Bool.and_eq_true, decide_eq_true_eq] at h
    obtain ⟨⟨⟨⟨⟨⟨⟨h1, h2⟩, h3⟩, h4⟩, h5⟩, h6⟩, h7⟩, h8⟩ := h
    exact ⟨s, rfl, ⟨h1, h2, ⟨h3, h4, h5⟩, h6, h7⟩, h8⟩

/-- The selector for `//a/@b` and `//a~` before the first item. -/
example : ∃ s, selAfter exDefs [] = some s ∧ Fresh s ∧
    (Sel.feed 100 [(.OpenTag, [97]), (.TagAttribName, [98]), (.TagAttribValue, [99]), (.CloseTagIm, [])] s.copy).1 =
      .ok [[], [], [1], [2]] :=
  exists_fresh (by decide +kernel)

/-- The expression `//a/*` and a document. -/
example : (∀ x ∈ [(⟨[⟨true, some [97]⟩, ⟨false, none⟩], 1⟩ : Expr)], x.steps ≠ [] ∧ ∀ s ∈ x.steps, ∀ nm, s.name = some nm → Name .utf8 nm) ∧
    expected [⟨[⟨true, some [97]⟩, ⟨false, none⟩], 1⟩] 1 [] [(.OpenTag, [97]), (.OpenTag, [98]), (.Content, [120])] = [0, 1, 0] := by
  refine ⟨fun x hx => ?_, by decide⟩
  rw [List.mem_singleton] at hx
  subst hx
  refine ⟨by decide, ?_⟩
  intro s hs nm h
  simp only [List.mem_cons, List.not_mem_nil, or_false] at hs
  rcases hs with rfl | rfl <;> cases h
  exact exName.1

/-- In an element `a` in an element `r`; no expression waits for the close tag of the element `x` in it. -/
example : (selAfter [[.follow, .tag (some [97]), .assign 1]] [(.OpenTag, [114]), (.OpenTag, [97]), (.OpenTag, [120])]).map (fun s =>
      (s.scopestk.length, s.scope.mask.matches .CloseTag,
        (Sel.feed 100 [(.CloseTag, [120]), (.CloseTag, [97]), (.OpenTag, [97])] s.copy).1)) =
    some (3, false, .ok [[], [], [1]]) := by decide +kernel

/-- C80 is false: the context of the selector is not copied. A copy made behind the open tag of `r` takes the element `a` in it
for a root element, for the expression `/a`; a copy for all contents (`//()`) does not report a content outside of
elements, though the selector does; and in a copy for `/*` the header is no element. -/
theorem C80_copy_false :
    (selAfter [[.tag (some [97]), .assign 1]] [(.OpenTag, [114])]).map (fun s =>
      ((Sel.feed 100 [(.OpenTag, [97])] s).1, (Sel.feed 100 [(.OpenTag, [97])] s.copy).1)) = some (.ok [[]], .ok [[1]]) ∧
    (selAfter [[.follow, .content, .assign 1]] []).map (fun s =>
      ((Sel.feed 100 [(.Content, [97])] s).1, (Sel.feed 100 [(.Content, [97])] s.copy).1)) = some (.ok [[1]], .ok [[]]) ∧
    (selAfter [[.tag none, .assign 1]] []).map (fun s =>
      ((Sel.feed 100 [(.HeaderStart, headerName)] s).1, (Sel.feed 100 [(.HeaderStart, headerName)] s.copy).1)) =
        some (.ok [[1]], .ok [[]]) :=
  ⟨by decide +kernel, by decide +kernel, by decide +kernel⟩

end TW
