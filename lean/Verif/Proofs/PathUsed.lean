import Verif.Proofs.PathListed

/-!
# The tokens listed are used
-/

namespace TW.Path

/-! ## The masks of a scope cover its tokens -/

/-- All that matches one mask matches another one. -/
def Mask.Sub (m o : Mask) : Prop := ∀ e, m.matches e = true → o.matches e = true

theorem Mask.Sub.refl (m : Mask) : m.Sub m := fun _ h => h

theorem Mask.Sub.trans {m o p : Mask} (h : m.Sub o) (k : o.Sub p) : m.Sub p := fun e he => k e (h e he)

theorem Mask.Sub.join (m o : Mask) : m.Sub (m.join o) := fun _ h => join_matches h

theorem Mask.Sub.join_right (m o : Mask) : o.Sub (m.join o) := by
  intro e h
  unfold Mask.matches Mask.join at *
  simp only [Nat.testBit_or, h, Bool.or_true]

theorem Mask.Sub.join_mono {m o : Mask} (h : m.Sub o) (p : Mask) : (m.join p).Sub (o.join p) := by
  intro e he
  have := h e
  unfold Mask.matches Mask.join at *
  simp only [Nat.testBit_or, Bool.or_eq_true] at *
  exact he.imp this id

theorem Mask.Sub.add (m : Mask) (t : ElementType) : m.Sub (m.match t) := by
  intro e he
  unfold Mask.matches Mask.match at *
  simp only [Nat.testBit_or, he, Bool.true_or]

theorem Mask.Sub.empty (m : Mask) : ({} : Mask).Sub m := by
  intro e he
  unfold Mask.matches at he
  simp at he

theorem Mask.Sub.fades {x y : Core} {m : Mask} (h : Fades x y) (k : x.mask.Sub m) : y.mask.Sub m := by
  rcases h.2 with e | e <;> rw [e]
  · exact k
  · exact .empty m

/-- The masks of an enclosing level cover its tokens. -/
structure Covered (toks : List Token) (fols : List Nat) (sc : Scope) : Prop where
  cur : ∀ (j : Nat) x, sc.tokenFrom ≤ j → j < sc.tokenTo → toks[j]? = some x → x.core.mask.Sub sc.mask
  fol : ∀ (k f : Nat) x, k < sc.followidx → fols[k]? = some f → toks[f]? = some x → x.core.mask.Sub sc.followMask
  sub : sc.followMask.Sub sc.mask
  top : sc.tokenTo ≤ toks.length
  idx : sc.followidx ≤ fols.length

/-- From here on the tokens are new on this level. -/
def Sel.low (s : Sel) : Nat := if s.type = .OpenTag then s.scope.tokenTo else s.scope.tokenFrom

/-- The masks cover the tokens. -/
structure Masked (a : Atm) (s : Sel) : Prop where
  atm : s.atm = a
  cur : ∀ (j : Nat) x, s.low ≤ j → s.tokens[j]? = some x → x.core.mask.Sub s.scope.mask
  fol : ∀ f ∈ s.follows, ∀ x, s.tokens[f]? = some x → x.core.mask.Sub s.scope.followMask
  refs : ∀ f ∈ s.follows, f < s.tokens.length
  sub : s.scope.followMask.Sub s.scope.mask
  lev : ∀ sc ∈ s.scopestk, Covered s.tokens s.follows sc ∧ ∀ (k f : Nat), k < sc.followidx → s.follows[k]? = some f → f < s.tokens.length

theorem get_append {α : Type} {l : List α} {x y : α} {j : Nat} (h : (l ++ [x])[j]? = some y) : l[j]? = some y ∨ (j = l.length ∧ y = x) := by
  rcases Nat.lt_or_ge j l.length with c | c
  · rw [List.getElem?_append_left c] at h
    exact .inl h
  · rw [List.getElem?_append_right c] at h
    have hj := lt_of_get h
    simp only [List.length_singleton] at hj
    have e := List.mem_singleton.1 (List.mem_of_getElem? h)
    exact .inr ⟨by omega, e⟩

theorem masked_base (a : Atm) : Base a (Masked a) (fun _ => True) (fun _ => True) where
  atm s h := h.atm
  act s i st h _ _ := by
    obtain ⟨h1, h2, h3, h4, h5, h6⟩ := h
    unfold Sel.activate
    by_cases c1 : st.core.mask.empty ∧ st.core.typeidx ≠ 0
    · simp only [if_pos c1]
      exact ⟨h1, fun j x hj hx => (h2 j x hj hx).trans (.join _ _), h3, h4, h5.trans (.join _ _), h6⟩
    · simp only [if_neg c1]
      have cur : ∀ (j : Nat) x, s.low ≤ j → (s.tokens ++ [({ core := st.core, stateidx := i } : Token)])[j]? = some x → x.core.mask.Sub (s.scope.mask.join st.core.mask) := by
        intro j x hj hx
        rcases get_append hx with hx | ⟨_, rfl⟩
        · exact (h2 j x hj hx).trans (.join _ _)
        · exact .join_right _ _
      have fol : ∀ (f : Nat) x, f ∈ s.follows → (s.tokens ++ [({ core := st.core, stateidx := i } : Token)])[f]? = some x → x.core.mask.Sub s.scope.followMask := by
        intro f x hf hx
        rcases get_append hx with hx | ⟨e, _⟩
        · exact h3 f hf x hx
        · have := h4 f hf
          omega
      have len : (s.tokens ++ [({ core := st.core, stateidx := i } : Token)]).length = s.tokens.length + 1 := by simp
      have lev : ∀ sc ∈ s.scopestk, ∀ fols : List Nat, (∀ k f, k < sc.followidx → fols[k]? = some f → s.follows[k]? = some f) → s.follows.length ≤ fols.length →
          Covered (s.tokens ++ [({ core := st.core, stateidx := i } : Token)]) fols sc ∧ ∀ (k f : Nat), k < sc.followidx → fols[k]? = some f → f < (s.tokens ++ [({ core := st.core, stateidx := i } : Token)]).length := by
        intro sc hsc fols hfols hlen
        obtain ⟨⟨g1, g2, g3, g4, g5⟩, g6⟩ := h6 sc hsc
        refine ⟨⟨fun j x hj hj' hx => ?_, fun k f x hk hf hx => ?_, g3, by omega, by omega⟩, fun k f hk hf => ?_⟩
        · rcases get_append hx with hx | ⟨e, _⟩
          · exact g1 j x hj hj' hx
          · omega
        · have hf' := hfols k f hk hf
          rcases get_append hx with hx | ⟨e, _⟩
          · exact g2 k f x hk hf' hx
          · have := g6 k f hk hf'
            omega
        · have := g6 k f hk (hfols k f hk hf)
          omega
      by_cases c2 : st.core.follow = true
      · simp only [if_pos c2]
        refine ⟨h1, cur, fun f hf x hx => ?_, fun f hf => ?_, h5.join_mono _, fun sc hsc => lev sc hsc _ (fun k f hk hf => ?_) (by simp)⟩
        · rcases List.mem_append.1 hf with hf | hf
          · exact (fol f x hf hx).trans (.join _ _)
          · have e : f = s.tokens.length := List.mem_singleton.1 hf
            have hx' : (s.tokens ++ [({ core := st.core, stateidx := i } : Token)])[f]? = some x := hx
            rcases get_append hx' with hx' | ⟨_, rfl⟩
            · have := lt_of_get hx'
              omega
            · exact .join_right _ _
        · show f < (s.tokens ++ _).length
          rcases List.mem_append.1 hf with hf | hf
          · have := h4 f hf
            omega
          · have e : f = s.tokens.length := List.mem_singleton.1 hf
            omega
        · have := (h6 sc hsc).1.idx
          rw [List.getElem?_append_left (by omega)] at hf
          exact hf
      · simp only [if_neg c2]
        exact ⟨h1, cur, fun f hf x hx => fol f x hf hx, fun f hf => by show f < (s.tokens ++ _).length; have := h4 f hf; omega, h5.trans (.join _ _),
          fun sc hsc => lev sc hsc _ (fun k f hk hf => hf) (Nat.le_refl _)⟩
  core s i x c _ h hx hc := by
    obtain ⟨h1, h2, h3, h4, h5, h6⟩ := h
    have get : ∀ (j : Nat) y, (s.tokens.set i { x with core := c })[j]? = some y → ∃ z, s.tokens[j]? = some z ∧ Fades z.core y.core := by
      intro j y hy
      by_cases e : i = j
      · subst e
        rw [List.getElem?_set_self (lt_of_get hx)] at hy
        cases hy
        exact ⟨x, hx, hc⟩
      · rw [List.getElem?_set_ne e] at hy
        exact ⟨y, hy, .refl _⟩
    refine ⟨h1, fun j y hj hy => ?_, fun f hf y hy => ?_, fun f hf => ?_, h5, fun sc hsc => ?_⟩
    · obtain ⟨z, k1, k2⟩ := get j y hy
      exact (h2 j z hj k1).fades k2
    · obtain ⟨z, k1, k2⟩ := get f y hy
      exact (h3 f hf z k1).fades k2
    · show f < (s.tokens.set i _).length
      rw [List.length_set]
      exact h4 f hf
    · obtain ⟨⟨g1, g2, g3, g4, g5⟩, g6⟩ := h6 sc hsc
      refine ⟨⟨fun j y hj hj' hy => ?_, fun k f y hk hf hy => ?_, g3, ?_, g5⟩, fun k f hk hf => ?_⟩
      · obtain ⟨z, k1, k2⟩ := get j y hy
        exact (g1 j z hj hj' k1).fades k2
      · obtain ⟨z, k1, k2⟩ := get f y hy
        exact (g2 k f z hk hf k1).fades k2
      · show _ ≤ (s.tokens.set i _).length
        rw [List.length_set]
        exact g4
      · show f < (s.tokens.set i _).length
        rw [List.length_set]
        exact g6 k f hk hf

theorem masked_walks (a : Atm) : Walks a (Masked a) (fun _ => True) (fun _ => True) where
  toBase := masked_base a
  step _ h := ⟨h.atm, h.cur, h.fol, h.refs, h.sub, h.lev⟩
  done _ h := ⟨h.atm, h.cur, h.fol, h.refs, h.sub, h.lev⟩
  pop _ _ _ h _ := ⟨⟨h.atm, h.cur, h.fol, h.refs, h.sub, h.lev⟩, trivial⟩
  vis _ _ _ _ _ _ _ _ _ _ _ _ _ _ _ _ _ := trivial
  out _ _ _ _ _ _ _ _ _ _ := trivial

theorem masked_init {a : Atm} {s : Sel} (h : Masked a s) (type : ElementType) (key : List Byte) : Masked a (Sel.initElement type key s) := by
  obtain ⟨h1, h2, h3, h4, h5, h6⟩ := h
  unfold Sel.initElement
  by_cases c : type = .OpenTag
  · simp only [if_pos c]
    refine ⟨h1, fun j x hj hx => ?_, h3, h4, .add _ _, fun sc hsc => ?_⟩
    · have hl : s.tokens.length ≤ j := by
        subst c
        exact hj
      have := lt_of_get hx
      have : j < s.tokens.length := this
      omega
    · rcases List.mem_cons.1 hsc with rfl | hsc
      · exact ⟨⟨fun j x hj _ hx => h2 j x hj hx, fun k f x _ hf hx => h3 f (List.mem_of_getElem? hf) x hx, h5, Nat.le_refl _, Nat.le_refl _⟩,
          fun k f _ hf => h4 f (List.mem_of_getElem? hf)⟩
      · exact h6 sc hsc
  · simp only [if_neg c]
    refine ⟨h1, fun j x hj hx => ?_, h3, h4, h5, h6⟩
    refine h2 j x ?_ hx
    unfold Sel.low at hj
    simp only [if_neg c] at hj
    exact hj

theorem masked_close {a : Atm} {s : Sel} (hs : Sound a s) (h : Masked a s) : Masked a (Sel.closeElement s) := by
  have hv := (close_safe hs).1
  unfold Sel.closeElement at *
  by_cases ht : s.type = .CloseTag ∨ s.type = .CloseTagIm
  · rw [if_pos ht] at hv ⊢
    cases hk : s.scopestk with
    | nil => exact h
    | cons sc stk =>
      rw [hk] at hv
      obtain ⟨h1, h2, h3, h4, h5, h6⟩ := h
      obtain ⟨⟨g1, g2, g3, g4, g5⟩, g6⟩ := h6 sc (by rw [hk]; exact List.mem_cons_self ..)
      have r1 : sc.followidx - s.follows.length = 0 := by omega
      have r2 : sc.tokenTo - s.tokens.length = 0 := by omega
      simp only [r1, r2, List.replicate_zero, List.append_nil] at hv ⊢
      have take : ∀ (j : Nat) x, (s.tokens.take sc.tokenTo)[j]? = some x → s.tokens[j]? = some x ∧ j < sc.tokenTo := by
        intro j x hx
        have := lt_of_get hx
        rw [List.length_take] at this
        rw [List.getElem?_take_of_lt (by omega)] at hx
        exact ⟨hx, by omega⟩
      have low : ¬ s.type = .OpenTag := by
        rcases ht with e | e <;> rw [e] <;> decide
      refine ⟨h1, fun j x hj hx => ?_, fun f hf x hx => ?_, hv.refs, g3, fun sc' hsc' => ?_⟩
      · obtain ⟨k1, k2⟩ := take j x hx
        refine g1 j x ?_ k2 k1
        unfold Sel.low at hj
        simp only [if_neg low] at hj
        exact hj
      · obtain ⟨k, hk'⟩ := List.mem_iff_getElem?.1 hf
        have hlt := lt_of_get hk'
        rw [List.length_take] at hlt
        rw [List.getElem?_take_of_lt (by omega)] at hk'
        exact g2 k f x (by omega) hk' (take f x hx).1
      · have lv : ∀ (stk : List Scope) (n : Nat) (F : List Nat), Levels stk n F → ∀ sc ∈ stk, sc.tokenTo ≤ n ∧ sc.followidx ≤ F.length := by
          intro stk
          induction stk with
          | nil => exact fun _ _ _ _ h => nomatch h
          | cons sc stk ih =>
            intro n F h sc' hsc'
            obtain ⟨l1, l2, l3, l4⟩ := h
            rcases List.mem_cons.1 hsc' with rfl | hm
            · exact ⟨l1, l2⟩
            · have := ih _ _ l4 sc' hm
              rw [List.length_take] at this
              omega
        have hl := lv _ _ _ hv.levels sc' hsc'
        obtain ⟨⟨g1', g2', g3', g4', g5'⟩, g6'⟩ := h6 sc' (by rw [hk]; exact List.mem_cons_of_mem _ hsc')
        have fget : ∀ (k f : Nat), (s.follows.take sc.followidx)[k]? = some f → s.follows[k]? = some f := by
          intro k f hf
          have := lt_of_get hf
          rw [List.length_take] at this
          rw [List.getElem?_take_of_lt (by omega)] at hf
          exact hf
        refine ⟨⟨fun j x hj hj' hx => g1' j x hj hj' (take j x hx).1, fun k f x hk hf hx => g2' k f x hk (fget k f hf) (take f x hx).1, g3', hl.1, hl.2⟩, fun k f _ hf => hv.refs f (List.mem_of_getElem? hf)⟩
  · rw [if_neg ht]
    exact h

theorem masked_mk {a : Atm} {s : Sel} (h : Sel.mk' a = .ok s) : Masked a s := by
  unfold Sel.mk' at h
  have k := (masked_base a).expand (a.length + 1) (if 0 < a.length then some 0 else none) (fun _ _ _ _ => trivial) { atm := a }
    ⟨rfl, (fun j x _ hx => by have : ([] : List Token)[j]? = some x := hx; simp at this), (fun _ h => nomatch h), (fun _ h => nomatch h), .refl _, fun _ h => nomatch h⟩
  split at h
  · next hx =>
    cases h
    rw [hx] at k
    exact k.1
  · cases h

theorem sound_walks (a : Atm) : Walks a (Sound a) (fun _ => True) (fun _ => True) where
  atm _ h := h.atm
  act _ _ st h hi _ := (activate_safe h st (lt_of_get hi)).1
  core s i x c _ h hx _ := by
    have len : (s.tokens.set i { x with core := c }).length = s.tokens.length := List.length_set
    refine ⟨h.atm, fun y hy => ?_, ?_, h.fol, fun f hf => ?_, ?_⟩
    · rcases List.mem_or_eq_of_mem_set hy with hy | rfl
      · exact h.states y hy
      · exact h.states x (List.mem_of_getElem? hx)
    · show _ ≤ (s.tokens.set i { x with core := c }).length
      rw [len]
      exact h.top
    · show _ < (s.tokens.set i { x with core := c }).length
      rw [len]
      exact h.refs f hf
    · show Levels _ (s.tokens.set i { x with core := c }).length _
      rw [len]
      exact h.levels
  step _ h := ⟨h.atm, h.states, h.top, h.fol, h.refs, h.levels⟩
  done _ h := ⟨h.atm, h.states, h.top, h.fol, h.refs, h.levels⟩
  pop _ _ _ h _ := ⟨⟨h.atm, h.states, h.top, h.fol, h.refs, h.levels⟩, trivial⟩
  vis _ _ _ _ _ _ _ _ _ _ _ _ _ _ _ _ _ := trivial
  out _ _ _ _ _ _ _ _ _ _ := trivial

/-- What holds after `push`, whatever the fuel was. -/
theorem push_keeps {a : Atm} {n : Nat} {type : ElementType} {key : List Byte} {s t : Sel} {rs : List Int} (hs : Sound a s)
    (hp : Sel.push n false type key s = (.ok rs, t)) : Sound a t ∧ (AllSpent a s → AllSpent a t) ∧ (Masked a s → Masked a t) := by
  obtain ⟨v, s1, s2, h1, h2, rfl⟩ := push_parts hp
  have go : ∀ {I : Sel → Prop}, Walks a I (fun _ => True) (fun _ => True) → I (Sel.initElement type key s) → I s2 := by
    intro I w h0
    have k1 := w.fetch n _ h0
    rw [h1] at k1
    have k2 := w.walk n n v (.inr trivial) s1 k1.1
    rw [h2] at k2
    exact k2.1
  have s0 := go (sound_walks a) (init_safe hs type key)
  refine ⟨(close_safe s0).1, fun hp => close_spent s0 ?_, fun hm => masked_close s0 (go (masked_walks a) (masked_init hm type key))⟩
  have k1 := fetch_holds n _ (init_spent hp type key)
  rw [h1] at k1
  have walks : ∀ (k : Nat) (e : Int), Holds a (Sel.walk n false k e) := by
    intro k
    induction k with
    | zero => exact fun _ => .stop _
    | succ k ih =>
      intro e
      unfold Sel.walk
      refine .ite (.pure _) ((fetch_holds n).bind fun v => ?_)
      exact (ih v).bind fun _ => .pure _
  have k2 := walks n v s1 k1
  rw [h2] at k2
  exact k2

theorem feed_keeps {a : Atm} {n : Nat} : ∀ (items : List (ElementType × List Byte)) {s t : Sel} {rss : List (List Int)}, Sound a s → AllSpent a s → Masked a s →
    Sel.feed n items s = (.ok rss, t) → Sound a t ∧ AllSpent a t ∧ Masked a t
  | [], s, t, rss, h1, h2, h3, h => by
    cases h
    exact ⟨h1, h2, h3⟩
  | (type, key) :: items, s, t, rss, h1, h2, h3, h => by
    unfold Sel.feed at h
    rcases hy : Sel.push n false type key s with ⟨r, s1⟩
    cases r with
    | stop er =>
      rw [M.bind_stop hy] at h
      cases h
    | ok rs =>
      rw [M.bind_ok hy] at h
      rcases hz : Sel.feed n items s1 with ⟨r, s2⟩
      cases r with
      | stop er =>
        rw [M.bind_stop hz] at h
        cases h
      | ok rs' =>
        rw [M.bind_ok hz] at h
        cases h
        have k := push_keeps h1 hy
        exact feed_keeps items k.1 (k.2.1 h2) (k.2.2 h3) hz

/-! ## A token that matches is used -/

/-- A trigger stays. -/
theorem kept_base (a : Atm) (ty : Int) : Base a (fun s => s.atm = a ∧ ty ∈ s.triggers) (fun _ => True) (fun _ => True) where
  atm _ h := h.1
  act s i st h _ _ := by
    unfold Sel.activate
    by_cases c1 : st.core.mask.empty ∧ st.core.typeidx ≠ 0
    · simp only [if_pos c1]
      exact ⟨h.1, List.mem_cons_of_mem _ h.2⟩
    · simp only [if_neg c1]
      by_cases c2 : st.core.follow = true
      · simp only [if_pos c2]
        exact h
      · simp only [if_neg c2]
        exact h
  core _ _ _ _ _ h _ _ := h

theorem expand_all {a : Atm} : ∀ (n : Nat) (o : Option Nat) (s s' : Sel), s.atm = a → Sel.expand n o s = (.ok (), s') → ∀ k st, Linked a o k → a[k]? = some st →
    st.core.mask.empty = true → st.core.typeidx ≠ 0 → st.core.typeidx ∈ s'.triggers
  | _, none, _, _, _, _, k, st, hl, _, _, _ => nomatch hl
  | 0, some i, _, _, _, h, _, _, _, _, _, _ => nomatch h
  | n + 1, some i, s, s', ha, h, k, st, hl, hk, he, ht => by
    unfold Sel.expand at h
    cases hi : s.atm[i]? with
    | none =>
      rw [M.bind_stop (show Sel.stateAt i s = (.stop .ub, s) by unfold Sel.stateAt; rw [hi])] at h
      cases h
    | some st0 =>
      rw [M.bind_ok (show Sel.stateAt i s = (.ok st0, s) by unfold Sel.stateAt; rw [hi]), M.bind_ok (M.modify_run _ _)] at h
      rw [ha] at hi
      have ha' : (Sel.activate st0 i s).atm = a := by
        unfold Sel.activate
        by_cases c1 : st0.core.mask.empty ∧ st0.core.typeidx ≠ 0
        · simp only [if_pos c1]
          exact ha
        · simp only [if_neg c1]
          by_cases c2 : st0.core.follow = true
          · simp only [if_pos c2]
            exact ha
          · simp only [if_neg c2]
            exact ha
      cases hl with
      | here =>
        rw [hi] at hk
        cases hk
        have b : Base a (fun s => s.atm = a ∧ st.core.typeidx ∈ s.triggers) (fun _ => True) (fun _ => True) := kept_base a _
        have := b.expand n st.link (fun _ _ _ _ => trivial) _ ⟨ha', by
          unfold Sel.activate
          simp only [if_pos (show st.core.mask.empty = true ∧ st.core.typeidx ≠ 0 from ⟨he, ht⟩)]
          exact List.mem_cons_self ..⟩
        rw [h] at this
        exact this.1.2
      | next hx t =>
        rw [hi] at hx
        cases hx
        exact expand_all n st0.link _ s' ha' h k st t hk he ht

/-- One token is not touched. -/
theorem other_base (a : Atm) (p : Nat) (x : Token) : Base a (fun s => s.atm = a ∧ s.tokens[p]? = some x) (fun _ => True) (fun i => i ≠ p) where
  atm _ h := h.1
  act s i st h _ _ := by
    refine ⟨?_, activate_get h.2⟩
    unfold Sel.activate
    by_cases c1 : st.core.mask.empty ∧ st.core.typeidx ≠ 0
    · simp only [if_pos c1]
      exact h.1
    · simp only [if_neg c1]
      by_cases c2 : st.core.follow = true
      · simp only [if_pos c2]
        exact h.1
      · simp only [if_neg c2]
        exact h.1
  core s i y c hi h _ _ := ⟨h.1, by
    show (s.tokens.set i _)[p]? = _
    rw [List.getElem?_set_ne hi]
    exact h.2⟩

/-- A state reports a type if it has no range. -/
theorem match_used {a : Atm} {s s' : Sel} {p : Nat} {x : Token} {st : State} {key : List Byte} {r ty : Int} (ha : s.atm = a) (hx : s.tokens[p]? = some x)
    (hp : p < s.scope.tokenTo) (hk : s.key = some key) (hm : x.core.mask.matches s.type = true) (hst : a[x.stateidx]? = some st) (hc : x.core.cntEnd = -1)
    (ht : x.core.typeidx = st.core.typeidx) (h0 : ty ≠ 0) (hr : Reports a key st ty) (h : Sel.matchToken p s = (.ok r, s')) : r = ty ∨ ty ∈ s'.triggers := by
  unfold Sel.matchToken at h
  rw [M.bind_ok (M.get_run _), hk] at h
  simp only [if_neg (Nat.not_le.2 hp)] at h
  rcases hy : Sel.fire p s.type key s with ⟨r1, s1⟩
  cases r1 with
  | stop er =>
    rw [M.bind_stop hy] at h
    cases h
  | ok v =>
    rw [M.bind_ok hy] at h
    rcases hg : Sel.giveUp p s.type s1 with ⟨r2, s2⟩
    cases r2 with
    | stop er =>
      rw [M.bind_stop hg] at h
      cases h
    | ok u =>
      rw [M.bind_ok hg] at h
      cases h
      have b := kept_base a ty
      -- the token fires
      unfold Sel.fire at hy
      rw [M.bind_ok (show Sel.tokenAt p s = (.ok x, s) by unfold Sel.tokenAt; rw [hx]), if_pos hm,
        M.bind_ok (show Sel.stateAt x.stateidx s = (.ok st, s) by unfold Sel.stateAt; rw [ha, hst])] at hy
      rcases hf : Sel.follow p key st s with ⟨r3, s3⟩
      cases r3 with
      | stop er =>
        rw [M.bind_stop hf] at hy
        cases hy
      | ok w =>
        rw [M.bind_ok hf] at hy
        -- what follows is `expand` or nothing
        have hprod : Sel.produce p st s = Sel.expand (s.atm.length + 1) st.next s := by
          unfold Sel.produce
          rw [M.bind_ok (M.get_run _), M.bind_ok (show Sel.tokenAt p s = (.ok x, s) by unfold Sel.tokenAt; rw [hx]), if_pos hc]
        rcases hr with hr | ⟨hkey, i, st', hl, hi, he, hty⟩
        · have keep : Holding (fun s => s.atm = a ∧ s.tokens[p]? = some x) (Sel.expand (s.atm.length + 1) st.next) fun _ => True :=
            (other_base a p x).expand _ _ fun _ _ _ _ => trivial
          have h3 : s3.tokens[p]? = some x := by
            unfold Sel.follow at hf
            have := keep s ⟨ha, hx⟩
            cases hsk : st.key with
            | none =>
              rw [hsk] at hf
              simp only [] at hf
              rw [hprod] at hf
              rw [hf] at this
              exact this.1.2
            | some k =>
              rw [hsk] at hf
              by_cases e : k = key
              · simp only [if_pos e] at hf
                rw [hprod] at hf
                rw [hf] at this
                exact this.1.2
              · simp only [if_neg e] at hf
                cases hf
                exact hx
          unfold Sel.emit at hy
          rw [M.bind_ok (show Sel.tokenAt p s3 = (.ok x, s3) by unfold Sel.tokenAt; rw [h3]), if_pos (by rw [ht, hr]; exact h0), if_pos hc] at hy
          cases hy
          exact .inl (ht.trans hr)
        · have hfol : Sel.follow p key st s = Sel.expand (s.atm.length + 1) st.next s := by
            unfold Sel.follow
            cases hsk : st.key with
            | none => exact hprod
            | some k =>
              simp only [if_pos (hkey k hsk)]
              exact hprod
          rw [hfol] at hf
          have h3 : ty ∈ s3.triggers := by
            subst hty
            exact expand_all _ _ s s3 ha hf i st' hl hi he h0
          have a3 : s3.atm = a := by
            have := ((other_base a p x).expand (s.atm.length + 1) st.next fun _ _ _ _ => trivial) s ⟨ha, hx⟩
            rw [hf] at this
            exact this.1.1
          have h4 : s1.atm = a ∧ ty ∈ s1.triggers := by
            have g3 : ∃ y, s3.tokens[p]? = some y := by
              have := ((other_base a p x).expand (s.atm.length + 1) st.next fun _ _ _ _ => trivial) s ⟨ha, hx⟩
              rw [hf] at this
              exact ⟨x, this.1.2⟩
            obtain ⟨y, hy3⟩ := g3
            have := b.emit (i := p) trivial y.core.typeidx s3 ⟨⟨a3, h3⟩, y, hy3, rfl⟩
            rw [hy] at this
            exact this.1.1
          have h5 : Holding (fun s => s.atm = a ∧ ty ∈ s.triggers) (Sel.giveUp p s.type) fun _ => True := by
            unfold Sel.giveUp
            exact (tokenAt_keeps p).bind fun tk _ => .ite (b.change (i := p) trivial _ fun c => ⟨rfl, .inr rfl⟩) (.pure trivial)
          have := h5 s1 h4
          rw [hg] at this
          exact .inr this.1.2

/-- While the results of the item after an open tag are fetched and there is still something to do. -/
structure Going (a : Atm) (t : Sel) (type : ElementType) (key : List Byte) (s : Sel) : Prop where
  behind : Behind a t type key (fun _ => True) s
  key : s.key = some key
  mask : s.scope.mask.matches type = true

theorem going_base {a : Atm} {t : Sel} {type : ElementType} {key : List Byte} (o : Opening a t) (c : Nat) :
    Base a (fun s => Going a t type key s ∧ s.iter = c) (fun _ => True) (fun _ => True) where
  atm _ h := h.1.behind.atm
  act s i st h hi _ := by
    have k := (behind_walks (type := type) (key := key) (R := fun _ => True) o fun _ _ _ _ _ _ _ _ _ => trivial).act s i st h.1.behind hi fun _ => trivial
    refine ⟨⟨k, ?_, ?_⟩, ?_⟩
    all_goals
      clear k
      unfold Sel.activate
      by_cases c1 : st.core.mask.empty ∧ st.core.typeidx ≠ 0
      · simp only [if_pos c1]
        first
        | exact h.1.key
        | exact join_matches h.1.mask
        | exact h.2
      · simp only [if_neg c1]
        by_cases c2 : st.core.follow = true
        · simp only [if_pos c2]
          first
          | exact h.1.key
          | exact join_matches h.1.mask
          | exact h.2
        · simp only [if_neg c2]
          first
          | exact h.1.key
          | exact join_matches h.1.mask
          | exact h.2
  core s i x d hi h hx hc :=
    ⟨⟨(behind_walks (type := type) (key := key) (R := fun _ => True) o fun _ _ _ _ _ _ _ _ _ => trivial).core s i x d hi h.1.behind hx hc, h.1.key, h.1.mask⟩, h.2⟩

/-- Where a token is visited. -/
structure Place (t : Sel) (p q : Nat) : Prop where
  place : (q = p ∧ t.scope.tokenTo ≤ p ∧ p < t.tokens.length) ∨ ∃ k, k < t.scope.followidx ∧ t.follows[k]? = some p ∧ q = t.tokens.length + k
  old : ∀ (k f : Nat), k < t.scope.followidx → t.follows[k]? = some f → f < t.scope.tokenTo
  idx : t.scope.followidx ≤ t.follows.length
  top : t.scope.tokenTo ≤ t.tokens.length

/-- A type will be reported. -/
def Live (p q : Nat) (x : Token) (ty : Int) (s : Sel) : Prop := (s.iter ≤ q ∧ s.tokens[p]? = some x) ∨ ty ∈ s.triggers

section

variable {a : Atm} {t : Sel} {type : ElementType} {key : List Byte} {p q : Nat} {x : Token} {st : State} {ty : Int}

theorem Place.lt (w : Place t p q) : p < t.tokens.length := by
  rcases w.place with ⟨_, _, h⟩ | ⟨k, h1, h2, _⟩
  · exact h
  · have := w.old k p h1 h2
    have := w.top
    omega

/-- One visit. -/
theorem visit_live (o : Opening a t) (w : Place t p q) (hm : x.core.mask.matches type = true) (hst : a[x.stateidx]? = some st) (hc : x.core.cntEnd = -1)
    (ht : x.core.typeidx = st.core.typeidx) (h0 : ty ≠ 0) (hr : Reports a key st ty) {s s1 : Sel} {i : Nat} {v : Int} (g : Going a t type key s) (l : Live p q x ty s)
    (hi : s.iter = q → i = p) (h : Sel.matchToken i s = (.ok v, s1)) :
    Going a t type key { s1 with iter := s1.iter + 1 } ∧ (v = ty ∨ Live p q x ty { s1 with iter := s1.iter + 1 }) := by
  have k1 := (going_base (type := type) (key := key) o s.iter).visit (R := fun _ => True) (i := i) trivial ⟨g, rfl⟩ (fun _ _ _ _ _ _ _ _ _ _ _ _ _ => trivial) (fun _ _ _ _ _ _ => trivial)
  rw [h] at k1
  obtain ⟨⟨⟨k1, k2, k3⟩, k4⟩, _⟩ := k1
  refine ⟨⟨(behind_walks (type := type) (key := key) (R := fun _ => True) o fun _ _ _ _ _ _ _ _ _ => trivial).step s1 k1, k2, k3⟩, ?_⟩
  rcases l with ⟨l1, l2⟩ | l
  · by_cases e : i = p
    · subst e
      have hlt : i < s.scope.tokenTo := by
        rw [g.behind.to']
        exact w.lt
      exact (match_used g.behind.atm l2 hlt g.key (by rw [g.behind.type]; exact hm) hst hc ht h0 hr h).imp id fun h => .inr h
    · have k5 := (other_base a p x).visit (R := fun _ => True) (i := i) e ⟨g.behind.atm, l2⟩ (fun _ _ _ _ _ _ _ _ _ _ _ _ _ => trivial) (fun _ _ _ _ _ _ => trivial)
      rw [h] at k5
      refine .inr (.inl ⟨?_, k5.1.2⟩)
      show s1.iter + 1 ≤ q
      have k4' : s1.iter = s.iter := k4
      have : s.iter ≠ q := fun e' => e (hi e')
      omega
  · have k5 := (kept_base a ty).visit (R := fun _ => True) (i := i) trivial ⟨g.behind.atm, l⟩ (fun _ _ _ _ _ _ _ _ _ _ _ _ _ => trivial) (fun _ _ _ _ _ _ => trivial)
    rw [h] at k5
    exact .inr (.inr k5.1.2)

theorem loop_live (o : Opening a t) (w : Place t p q) (hm : x.core.mask.matches type = true) (hst : a[x.stateidx]? = some st) (hc : x.core.cntEnd = -1)
    (ht : x.core.typeidx = st.core.typeidx) (h0 : ty ≠ 0) (hr : Reports a key st ty) :
    ∀ (n : Nat) (s s' : Sel) (r : Int), Going a t type key s → Live p q x ty s → Sel.fetchLoop n s = (.ok r, s') → r ≠ 0 ∧ (r = ty ∨ Going a t type key s' ∧ Live p q x ty s')
  | 0, _, _, _, _, _, h => nomatch h
  | n + 1, s, s', r, g, l, h => by
    rw [loop_succ] at h
    have go : ∀ (v : Int) (s1 : Sel), Going a t type key s1 → (v = ty ∨ Live p q x ty s1) → (if v = 0 then Sel.fetchLoop n else pure v : M Sel Int) s1 = (.ok r, s') →
        r ≠ 0 ∧ (r = ty ∨ Going a t type key s' ∧ Live p q x ty s') := by
      intro v s1 g1 l1 h
      by_cases hv : v = 0
      · rw [if_pos hv] at h
        exact loop_live o w hm hst hc ht h0 hr n s1 s' r g1 (l1.resolve_left fun e => h0 (e.symm.trans hv)) h
      · rw [if_neg hv] at h
        cases h
        exact ⟨hv, l1.imp id fun l => ⟨g1, l⟩⟩
    have visit : ∀ i, (s.iter = q → i = p) → (do
        let type ← Sel.matchToken i
        M.modify fun s => { s with iter := s.iter + 1 }
        if type = 0 then Sel.fetchLoop n else pure type : M Sel Int) s = (.ok r, s') → r ≠ 0 ∧ (r = ty ∨ Going a t type key s' ∧ Live p q x ty s') := by
      intro i hi h
      rcases hy : Sel.matchToken i s with ⟨r1, s1⟩
      cases r1 with
      | stop er =>
        rw [M.bind_stop hy] at h
        cases h
      | ok v =>
        rw [M.bind_ok hy, M.bind_ok (M.modify_run _ _)] at h
        obtain ⟨g1, l1⟩ := visit_live o w hm hst hc ht h0 hr g l hi hy
        exact go v _ g1 l1 h
    have rest : ty ∈ s.triggers → (match s.triggers with
        | t :: ts => do
          M.modify fun s => { s with triggers := ts }
          if t = 0 then Sel.fetchLoop n else pure t
        | [] => do
          M.modify fun s => { s with key := none }
          pure 0 : M Sel Int) s = (.ok r, s') → r ≠ 0 ∧ (r = ty ∨ Going a t type key s' ∧ Live p q x ty s') := by
      intro l h
      cases hs : s.triggers with
      | nil =>
        rw [hs] at l
        cases l
      | cons v ts =>
        rw [hs] at h l
        simp only [] at h
        rw [M.bind_ok (M.modify_run _ _)] at h
        refine go v _ ⟨((behind_walks (type := type) (key := key) (R := fun _ => True) o fun _ _ _ _ _ _ _ _ _ => trivial).pop s v ts g.behind hs).1, g.key, g.mask⟩ ?_ h
        rcases List.mem_cons.1 l with e | l
        · exact .inl e.symm
        · exact .inr (.inr l)
    have hto := g.behind.to'
    have hfrom := g.behind.from'
    have hidx := g.behind.idx
    by_cases h1 : s.iter < s.scope.tokenTo
    · rw [if_pos h1] at h
      refine visit _ (fun e => ?_) h
      rcases w.place with ⟨e', _⟩ | ⟨k, _, _, e'⟩ <;> omega
    · rw [if_neg h1] at h
      -- what is left to be visited, is not in the range
      have pend : s.iter ≤ q → ∃ k, k < t.scope.followidx ∧ t.follows[k]? = some p ∧ q = t.tokens.length + k := by
        intro hq
        rcases w.place with ⟨e, _, e'⟩ | hk
        · omega
        · exact hk
      have widx := w.idx
      by_cases h2 : s.iter - s.scope.tokenTo < s.scope.followidx
      · rw [if_pos h2] at h
        obtain ⟨f, hf⟩ := get_of_lt (l := t.follows) (i := s.iter - s.scope.tokenTo) (by omega)
        have hf' := g.behind.fol _ f hf
        rw [hf'] at h
        simp only [] at h
        by_cases h4 : f < s.scope.tokenFrom
        · rw [if_pos h4] at h
          refine visit _ (fun e => ?_) h
          obtain ⟨k, e1, e2, e3⟩ := pend (by omega)
          have : k = s.iter - s.scope.tokenTo := by omega
          rw [this, hf] at e2
          cases e2
          rfl
        · rw [if_neg h4] at h
          refine rest (l.resolve_left fun ⟨hq, _⟩ => ?_) h
          obtain ⟨k, e1, e2, e3⟩ := pend hq
          have := w.old _ f (by omega) hf
          omega
      · rw [if_neg h2] at h
        refine rest (l.resolve_left fun ⟨hq, _⟩ => ?_) h
        obtain ⟨k, e1, e2, e3⟩ := pend hq
        omega

theorem walk_live (o : Opening a t) (w : Place t p q) (hm : x.core.mask.matches type = true) (hst : a[x.stateidx]? = some st) (hc : x.core.cntEnd = -1)
    (ht : x.core.typeidx = st.core.typeidx) (h0 : ty ≠ 0) (hr : Reports a key st ty) (n : Nat) :
    ∀ (k : Nat) (e : Int) (s s' : Sel) (es : List Int), e ≠ 0 → (e = ty ∨ Going a t type key s ∧ Live p q x ty s) → Sel.walk n false k e s = (.ok es, s') → ty ∈ es
  | 0, _, _, _, _, _, _, h => nomatch h
  | k + 1, e, s, s', es, he, hl, h => by
    unfold Sel.walk at h
    rw [if_neg he] at h
    rcases hy : Sel.fetch n s with ⟨r, s1⟩
    cases r with
    | stop er =>
      rw [M.bind_stop hy] at h
      cases h
    | ok v =>
      rw [M.bind_ok hy] at h
      have h' : (Sel.walk n false k v >>= fun es => (pure (e :: es) : M Sel (List Int))) s1 = (.ok es, s') := h
      rcases hw : Sel.walk n false k v s1 with ⟨r', s2⟩
      cases r' with
      | stop er =>
        rw [M.bind_stop hw] at h'
        cases h'
      | ok es' =>
        rw [M.bind_ok hw] at h'
        cases h'
        rcases hl with rfl | ⟨g, l⟩
        · exact List.mem_cons_self ..
        · unfold Sel.fetch at hy
          rw [M.bind_ok (M.get_run _), if_pos (by rw [g.behind.type]; exact g.mask)] at hy
          obtain ⟨d1, d2⟩ := loop_live o w hm hst hc ht h0 hr n s s1 v g l hy
          exact List.mem_cons_of_mem _ (walk_live o w hm hst hc ht h0 hr n k v s1 _ es' d1 d2 hw)

end

theorem old_walks (a : Atm) : Walks a (fun s => s.atm = a ∧ s.scope.followidx ≤ s.follows.length ∧
    ∀ (k f : Nat), k < s.scope.followidx → s.follows[k]? = some f → f < s.scope.tokenTo) (fun _ => True) (fun _ => True) where
  atm _ h := h.1
  act s i st h _ _ := by
    unfold Sel.activate
    by_cases c1 : st.core.mask.empty ∧ st.core.typeidx ≠ 0
    · simp only [if_pos c1]
      exact h
    · simp only [if_neg c1]
      by_cases c2 : st.core.follow = true
      · simp only [if_pos c2]
        refine ⟨h.1, ?_, fun k f hk hf => ?_⟩
        · rw [List.length_append]
          have := h.2.1
          omega
        · have := h.2.1
          rw [List.getElem?_append_left (by omega)] at hf
          exact h.2.2 k f hk hf
      · simp only [if_neg c2]
        exact h
  core _ _ _ _ _ h _ _ := h
  step _ h := h
  done _ h := h
  pop _ _ _ h _ := ⟨h, trivial⟩
  vis _ _ _ _ _ _ _ _ _ _ _ _ _ _ _ _ _ := trivial
  out _ _ _ _ _ _ _ _ _ _ := trivial

theorem open_old {a : Atm} {n : Nat} {key : List Byte} {s t : Sel} {rs : List Int} (hs : Sound a s) (h : Sel.push n false .OpenTag key s = (.ok rs, t)) :
    t.atm = a ∧ t.scope.followidx ≤ t.follows.length ∧ ∀ (k f : Nat), k < t.scope.followidx → t.follows[k]? = some f → f < t.scope.tokenTo := by
  have o := (open_done hs.atm h).1
  obtain ⟨v, s1, s2, h1, h2, rfl⟩ := push_parts h
  have k1 := (old_walks a).fetch n (Sel.initElement .OpenTag key s) ⟨hs.atm, Nat.le_refl _, fun k f _ hf => hs.refs f (List.mem_of_getElem? hf)⟩
  rw [h1] at k1
  have k2 := (old_walks a).walk n n v (.inr trivial) s1 k1.1
  rw [h2] at k2
  have e : Sel.closeElement s2 = s2 := by
    have ty : s2.type = .OpenTag := by
      have := o.type
      unfold Sel.closeElement at this
      split at this
      · split at this <;> exact this
      · exact this
    unfold Sel.closeElement
    rw [if_neg]
    rw [ty]
    decide
  rw [e]
  exact k2.1

/-- A state listed after an open tag reports its types for the next item. -/
theorem open_used {a : Atm} {s t u : Sel} {n m : Nat} {key key' : List Byte} {type : ElementType} {rs rs' : List Int} {w : Bool} {l : List Nat} {i : Nat} {st : State} {ty : Int}
    (hs : Sound a s) (hp : AllSpent a s) (hmk : Masked a s)
    (h1 : Sel.push n false .OpenTag key s = (.ok rs, t)) (hl : Sel.matchingStates type w t = (.ok l, t)) (hi : i ∈ l) (hst : a[i]? = some st) (hc : st.core.cntEnd = -1)
    (h0 : ty ≠ 0) (hr : Reports a key' st ty) (h2 : Sel.push m false type key' t = (.ok rs', u)) : ty ∈ rs' := by
  obtain ⟨o, htr⟩ := open_done hs.atm h1
  obtain ⟨ts, tp, tm⟩ := push_keeps hs h1
  have tp := tp hp
  have tm := tm hmk
  -- the token
  have hl' : ∃ p x, t.Listed p ∧ t.tokens[p]? = some x ∧ x.core.mask.matches type = true ∧ x.stateidx = i := by
    cases w with
    | true => exact (listed_mem ts hl i).1 hi
    | false =>
      obtain ⟨l', hl', _⟩ := matchingStates_safe ts type true
      refine (listed_mem ts hl' i).1 ?_
      unfold Sel.matchingStates at hl hl'
      obtain ⟨l1, g1, _⟩ := matching_safe ts type (List.range' t.scope.tokenTo (t.tokens.length - t.scope.tokenTo)) (fun i hi => by
        have := ts.top
        have := List.mem_range'_1.1 hi
        omega)
      obtain ⟨l2, g2, _⟩ := followsAt_safe ts type t.scope.followidx 0 (by
        have := ts.fol
        omega)
      rw [M.bind_ok (M.get_run _), M.bind_ok g1] at hl
      rw [M.bind_ok (M.get_run _), M.bind_ok g1, if_pos rfl, M.bind_ok g2] at hl'
      cases hl
      cases hl'
      exact List.mem_append_left _ hi
  obtain ⟨p, x, c1, c2, c3, rfl⟩ := hl'
  obtain ⟨st', d1, d2⟩ := tp.2 x (List.mem_of_getElem? c2)
  rw [hst] at d1
  cases d1
  have hold : ∀ (k f : Nat), k < t.scope.followidx → t.follows[k]? = some f → f < t.scope.tokenTo := (open_old hs h1).2.2
  obtain ⟨q, wp⟩ : ∃ q, Place t p q := by
    rcases c1 with ⟨e1, e2⟩ | ⟨k, e1, e2⟩
    · exact ⟨p, .inl ⟨rfl, e1, e2⟩, hold, ts.fol, ts.top⟩
    · exact ⟨t.tokens.length + k, .inr ⟨k, e1, e2, rfl⟩, hold, ts.fol, ts.top⟩
  have hq : t.scope.tokenTo ≤ q := by
    have := ts.top
    rcases wp.place with ⟨e, e1, _⟩ | ⟨k, _, _, e⟩ <;> omega
  have hmask : x.core.mask.Sub t.scope.mask := by
    rcases c1 with ⟨e1, e2⟩ | ⟨k, e1, e2⟩
    · refine tm.cur p x ?_ c2
      unfold Sel.low
      rw [if_pos o.type]
      exact e1
    · exact (tm.fol p (List.mem_of_getElem? e2) x c2).trans tm.sub
  obtain ⟨v, s1, s2, g1, g2, _⟩ := push_parts h2
  have h0' : Going a t type key' (Sel.initElement type key' t) ∧ Live p q x ty (Sel.initElement type key' t) := by
    have hf : (if t.type = .OpenTag then t.scope.tokenTo else t.scope.tokenFrom) = t.scope.tokenTo := if_pos o.type
    unfold Sel.initElement
    simp only [hf]
    by_cases c : type = .OpenTag
    · rw [if_pos c]
      refine ⟨⟨⟨o.atm, rfl, fun k e => by cases e; rfl, rfl, rfl, rfl, Nat.le_refl _, fun j x hx => ⟨x, hx, rfl, .refl _⟩, fun _ _ h => h, fun _ _ => trivial⟩, rfl, ?_⟩, .inl ⟨hq, c2⟩⟩
      subst c
      unfold Mask.matches Mask.match
      simp only [ElementType.toNat, Nat.testBit_or, Nat.one_shiftLeft, Nat.testBit_two_pow_self, Bool.or_true]
    · rw [if_neg c]
      exact ⟨⟨⟨o.atm, rfl, fun k e => by cases e; rfl, rfl, rfl, rfl, Nat.le_refl _, fun j x hx => ⟨x, hx, rfl, .refl _⟩, fun _ _ h => h, fun _ _ => trivial⟩, rfl, hmask _ c3⟩, .inl ⟨hq, c2⟩⟩
  obtain ⟨hg, hlv⟩ := h0'
  have hcx : x.core.cntEnd = -1 := (d2.free (by omega)).trans hc
  unfold Sel.fetch at g1
  rw [M.bind_ok (M.get_run _), if_pos (by rw [hg.behind.type]; exact hg.mask)] at g1
  obtain ⟨e1, e2⟩ := loop_live o wp c3 hst hcx d2.type h0 hr m _ s1 v hg hlv g1
  exact walk_live o wp c3 hst hcx d2.type h0 hr m m v s1 s2 rs' e1 e2 g2

end TW.Path
